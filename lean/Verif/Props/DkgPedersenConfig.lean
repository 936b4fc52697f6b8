/-
Properties C37 (unspecified threshold), C38 (duplicated keys), C74 (finishing with enough qualified
dealers) of the Pedersen DKG (`src/share/dkg/pedersen/dkg.rs`).
-/
import Verif.Props.DkgPedersenHonest

set_option linter.unusedSectionVars false

namespace Kyber.DkgP

open Kyber.Poly Kyber.Spec Kyber.VssP

variable {F G : Type} [Field F] [AddCommGroup G] [SMul F G] [DecidableEq G]

theorem dkgLoop_ne_panic (S : Suite F G) (l : List (Nat × Verifier F G)) (sh : F)
    (p : Option (PubPoly G)) : Dkg.dkgLoop S l sh p ≠ .panic := by
  induction l generalizing sh p with
  | nil => simp [Dkg.dkgLoop]
  | cons e l ih =>
    obtain ⟨i, v⟩ := e
    unfold Dkg.dkgLoop
    split
    · exact ih _ _
    · split
      · simp
      · simp only
        split
        · exact ih _ _
        · unfold PubPoly.add
          split
          · exact ih _ _
          · simp
          · rename_i h
            split at h <;> cases h

theorem dkgLoop_none_result (S : Suite F G) (l : List (Nat × Verifier F G)) (sh sh' : F)
    (p : Option (PubPoly G)) (h : Dkg.dkgLoop S l sh p = .ok (sh', none)) :
    p = none ∧ ∀ e ∈ l, e.2.aggregator.dealCertified = false := by
  induction l generalizing sh p with
  | nil =>
    simp only [Dkg.dkgLoop, Res.ok.injEq, Prod.mk.injEq] at h
    exact ⟨h.2, by simp⟩
  | cons e l ih =>
    obtain ⟨i, v⟩ := e
    unfold Dkg.dkgLoop at h
    split at h
    · rename_i hc
      obtain ⟨h1, h2⟩ := ih _ _ h
      refine ⟨h1, ?_⟩
      intro e he
      rcases List.mem_cons.1 he with rfl | he
      · exact hc
      · exact h2 e he
    · split at h
      · cases h
      · simp only at h
        split at h
        · exact absurd (ih _ _ h).1 (by simp)
        · split at h
          · exact absurd (ih _ _ h).1 (by simp)
          · cases h
          · cases h

/-- `dkg_key` panics only if no deal is certified. -/
theorem dkgKey_panic {S : Suite F G} {ord : MapOrder} {d : Dkg F G} (h : d.dkgKey S ord = .panic) :
    ∀ e ∈ d.verifiers, e.2.aggregator.dealCertified = false := by
  unfold Dkg.dkgKey at h
  generalize hr : Dkg.dkgLoop S (ord.run d.verifiers) 0 none = r at h
  cases r with
  | err e => cases h
  | panic => exact absurd hr (dkgLoop_ne_panic _ _ _ _)
  | ok r =>
    obtain ⟨sh, p⟩ := r
    cases p with
    | some p => cases h
    | none =>
      have := (dkgLoop_none_result S _ _ _ _ hr).2
      intro e he
      exact this e ((ord.perm _).symm.subset he)

end Kyber.DkgP

namespace Kyber.Props

open Kyber Kyber.Poly Kyber.Spec Kyber.VssP Kyber.DkgP

variable {F G : Type} [Field F] [AddCommGroup G] [SMul F G] [DecidableEq G]

/-! ## C37: the threshold -/

/-- C37, the intended property: in a fresh DKG `dist_key_share` never panics, and gives a key only if
at least as many dealers are qualified as the threshold in use (`d0.newT`, the default if the
configured threshold is 0). -/
def C37_statement : Prop :=
  ∀ (F G : Type) (_ : Field F) (_ : AddCommGroup G) (_ : Module F G) (_ : DecidableEq G)
    (E : DkgEnv F G) (_ : E.suite.Lawful) (x : F) (ps : List G) (_ : ps.Nodup) (t : Nat) (secret : F)
    (draws : List F) (d0 : Dkg F G)
    (_ : newDistKeyGenerator E.suite x ps t secret draws = .ok d0) (cs : List (DCall F G))
    (ord : MapOrder) (Q : Finset Nat) (_ : ∀ i, i ∈ Q ↔ Qualified (dRun E d0 cs) i),
    (dRun E d0 cs).distKeyShare E.suite ord ≠ .panic ∧
    ∀ k, (dRun E d0 cs).distKeyShare E.suite ord = .ok k → d0.newT ≤ Q.card

/-- C37 for a specified threshold: `dist_key_share` never panics, whatever messages arrived; with
fewer qualified dealers than the threshold it is an error, so a key needs that many. Missing: the
threshold 0, which stands for the default. -/
theorem C37_threshold_partial (E : DkgEnv F G) (x : F) (ps : List G) (t : Nat) (ht : t ≠ 0)
    (secret : F) (draws : List F) (d0 : Dkg F G)
    (h0 : newDistKeyGenerator E.suite x ps t secret draws = .ok d0) (cs : List (DCall F G))
    (ord : MapOrder) (Q : Finset Nat) (hQ : ∀ i, i ∈ Q ↔ Qualified (dRun E d0 cs) i) :
    d0.newT = t ∧ (dRun E d0 cs).distKeyShare E.suite ord ≠ .panic ∧
    (∀ k, (dRun E d0 cs).distKeyShare E.suite ord = .ok k → t ≤ Q.card) ∧
    (Q.card < t → (dRun E d0 cs).distKeyShare E.suite ord = .err .distributedKeyNotCertified) := by
  have h0' : newDistKeyHandler E.suite ⟨x, [], none, ps, none, t, 0⟩ secret draws = .ok d0 := h0
  have hst := newDistKeyHandler_ok h0'
  have hev := dRun_evolves E d0 cs
  have hp0 : d0.newPresent = true := by
    by_contra hp
    rw [Bool.not_eq_true] at hp
    have h1 := hst.nidx
    unfold newDistKeyHandler at h0'
    rw [Res.ite_err_eq_ok] at h0'
    simp only at h0'
    rw [Res.ite_err_eq_ok, Res.ite_err_eq_ok, Res.ite_err_eq_ok] at h0'
    refine h0'.2.2.2.1 ⟨rfl, ?_⟩
    simp only at h1
    rw [h1]; exact hp
  have hthr := C36_threshold_certified E _ secret draws d0 h0' hp0 cs ord Q hQ
  simp only [Option.isSome_none, Bool.or_self, Bool.false_eq_true, if_false] at hthr
  have hlt : Q.card < t → (dRun E d0 cs).distKeyShare E.suite ord = .err .distributedKeyNotCertified := by
    intro hlt
    unfold Dkg.distKeyShare
    rw [if_pos]
    rw [← Bool.not_eq_true, hthr]
    omega
  refine ⟨?_, ?_, ?_, hlt⟩
  · rw [hst.newT, if_pos ht]
  · intro hpan
    by_cases hc : Q.card < t
    · rw [hlt hc] at hpan; cases hpan
    · have hne : Q.Nonempty := Finset.card_pos.1 (by omega)
      obtain ⟨i, hi⟩ := hne
      obtain ⟨v, hv, hcert⟩ := (hQ i).1 hi
      unfold Dkg.distKeyShare at hpan
      rw [if_neg (by rw [Bool.not_eq_false, hthr]; omega),
        if_neg (by rw [hev.canReceive, hst.receive, hp0]; simp),
        if_neg (by rw [hev.isResharing, hst.resharing]; simp)] at hpan
      have := dkgKey_panic hpan _ (AMap.mem_of_get hv)
      simp only at this
      rw [hcert] at this; cases this
  · intro k hk
    by_contra hc
    rw [hlt (by omega)] at hk; cases hk

namespace DkgPExample

open Kyber.Toy

/-- participant 0 of three, no threshold given -/
def unspec : Dkg (ZMod 11) (ZMod 11) := getDkg (newDistKeyGenerator envD.suite 3 [6, 10, 4] 0 7 [5])

theorem unspec_ok : newDistKeyGenerator envD.suite 3 [6, 10, 4] 0 7 [5] = .ok unspec ∧
    unspec.newT = 2 := ⟨rfl, by decide +kernel⟩

theorem unspec_panics : unspec.distKeyShare envD.suite MapOrder.id = .panic ∧
    unspec.qual MapOrder.id = [] := by decide +kernel

/-- Participant 0 deals, and everybody approves its deal; the others have not dealt. -/
def alone : List (DCall (ZMod 11) (ZMod 11)) :=
  [.deals ((net envD).dh 0) ((net envD).k 0) ((net envD).rnd 0) 5 1,
   .response ((net envD).respMsg envD 0 1) 1, .response ((net envD).respMsg envD 0 2) 1]

theorem alone_key :
    (dRun envD unspec alone).distKeyShare envD.suite MapOrder.id =
      .ok ⟨[7 * 2, 5 * 2], ⟨0, 7 + 5⟩, [7, 5]⟩ ∧
    (dRun envD unspec alone).qual MapOrder.id = [0] := by
  decide +kernel

/-- With an explicit threshold the same history is an error: `C37_threshold_partial`. -/
example : (dRun envD ((net envD).D 0) alone).distKeyShare envD.suite MapOrder.id =
    .err .distributedKeyNotCertified := by decide +kernel

theorem qual_iff {E : DkgEnv F G} {x : F} {ps : List G} {t : Nat} {secret : F} {draws : List F}
    {d0 : Dkg F G} (h0 : newDistKeyGenerator E.suite x ps t secret draws = .ok d0)
    (hp : d0.newPresent = true) (cs : List (DCall F G)) (i : Nat) :
    i ∈ ((dRun E d0 cs).qual MapOrder.id).toFinset ↔ Qualified (dRun E d0 cs) i := by
  rw [List.mem_toFinset, ((C36_qual E _ secret draws d0 h0 hp cs MapOrder.id MapOrder.id).1 i)]
  unfold Qualified
  constructor
  · rintro ⟨v, hv, hc⟩; exact ⟨v, hv, (C23_certified_iff _).2 hc⟩
  · rintro ⟨v, hv, hc⟩; exact ⟨v, hv, (C23_certified_iff _).1 hc⟩

end DkgPExample

open DkgPExample in
/-- C37 does not hold: with the threshold left at 0, `dist_key_share` panics before any deal is
certified. -/
theorem C37_violated_panic : ¬ C37_statement := by
  intro h
  exact (h (ZMod 11) (ZMod 11) _ _ _ _ Toy.envD Toy.lawful 3 [6, 10, 4] (by decide +kernel) 0 7 [5]
    unspec unspec_ok.1 [] MapOrder.id _ (qual_iff unspec_ok.1 rfl [])).1 unspec_panics.1

open DkgPExample in
/-- C37 does not hold: with the threshold left at 0, a participant gets a key from its own deal
alone, although the threshold in use is 2; it then knows the whole secret. -/
theorem C37_violated_single_dealer : ¬ C37_statement := by
  intro h
  have := (h (ZMod 11) (ZMod 11) _ _ _ _ Toy.envD Toy.lawful 3 [6, 10, 4] (by decide +kernel) 0 7 [5]
    unspec unspec_ok.1 alone MapOrder.id _ (qual_iff unspec_ok.1 rfl alone)).2 _ alone_key.1
  rw [alone_key.2, unspec_ok.2] at this
  revert this
  decide

/-! ## C38: duplicated keys -/

/-- C38, the intended property: lists with duplicated keys are refused. -/
def C38_statement : Prop :=
  ∀ (F G : Type) (_ : Field F) (_ : AddCommGroup G) (_ : Module F G) (_ : DecidableEq G)
    (S : Suite F G) (_ : S.Lawful) (c : Config F G) (secret : F) (draws : List F) (d : Dkg F G),
    newDistKeyHandler S c secret draws = .ok d → c.oldNodes.Nodup ∧ c.newNodes.Nodup

/-- C38, the intended consequence: a participant of the new group has a verifier for every dealer,
so that no deal makes it panic for lack of one. -/
def C38_verifiers_statement : Prop :=
  ∀ (F G : Type) (_ : Field F) (_ : AddCommGroup G) (_ : Module F G) (_ : DecidableEq G)
    (S : Suite F G) (_ : S.Lawful) (c : Config F G) (secret : F) (draws : List F) (d : Dkg F G),
    newDistKeyHandler S c secret draws = .ok d → d.newPresent = true →
    ∀ i < d.c.oldNodes.length, (d.verifiers.get i).isSome

/-- C38, what holds: the duplicate check on the dealers decides whether there are verifiers. Without
duplicates every dealer has one, in every later state, at the participant's position and for the
dealer's key; with a duplicate there is none, ever, so nobody qualifies, and a deal with a valid
signature panics. Missing: the refusal of the list. -/
theorem C38_duplicates_partial (E : DkgEnv F G) (c : Config F G) (secret : F) (draws : List F)
    (d0 : Dkg F G) (h0 : newDistKeyHandler E.suite c secret draws = .ok d0)
    (hp : d0.newPresent = true) (cs : List (DCall F G)) :
    let d := dRun E d0 cs
    (d.c.oldNodes.Nodup → ∀ i p, d.c.oldNodes[i]? = some p → ∃ v, d0.verifiers.get i = some v ∧
      (d.verifiers.get i).isSome ∧ v.dealer = p ∧ v.index = d.nidx ∧ v.verifiers = d.c.newNodes) ∧
    (¬ d.c.oldNodes.Nodup → d.verifiers = [] ∧ (∀ ord, d.qual ord = [] ∧ d.certified ord = false) ∧
      ∀ dd k k' pub, (if d.isResharing then d.c.oldNodes else d.c.newNodes)[dd.index]? = some pub →
        Schnorr.verify E.suite pub (E.encDist dd.index dd.deal) dd.signature = .ok () →
        (d.processDeal E dd k k').2 = .panic) := by
  intro d
  have hst := newDistKeyHandler_ok h0
  have hev := dRun_evolves E d0 cs
  have hc : d.c = d0.c := hev.c
  constructor
  · intro hnd i p hi
    rw [hc] at hnd hi
    have hv : d0.verifiers.get i = some (startVer E.suite d0.c.longterm d0.c.newNodes d0.c.threshold
        d0.nidx p) := by
      rw [hst.verifiers, if_pos ⟨hp, hnd⟩, startVers_get, hi]; rfl
    obtain ⟨vcs, -, hv'⟩ := hev.ver i _ hv
    refine ⟨_, hv, ?_, rfl, hev.nidx.symm, ?_⟩
    · show (d.verifiers.get i).isSome
      rw [show d.verifiers.get i = _ from hv']; rfl
    · rw [hc]; rfl
  · intro hnd
    rw [hc] at hnd
    have hv : d.verifiers = [] := by
      have h1 : d.verifiers.keys = d0.verifiers.keys := hev.keys
      rw [hst.verifiers, if_neg (by rintro ⟨-, h⟩; exact hnd h)] at h1
      have := congrArg List.length h1
      rw [AMap.length_keys] at this
      exact List.eq_nil_of_length_eq_zero this
    have hpos : 0 < d.c.oldNodes.length := by
      rw [hc]
      by_contra hz
      have : d0.c.oldNodes = [] := List.eq_nil_of_length_eq_zero (by omega)
      rw [this] at hnd; exact hnd List.nodup_nil
    refine ⟨hv, fun ord => ?_, ?_⟩
    · have hr : ord.run d.verifiers = [] := by
        rw [hv]; exact List.Perm.eq_nil (ord.perm _)
      have hnew : ¬ (d.isResharing = true ∧ d.canIssue = true ∧ d.newPresent = false) := by
        rintro ⟨-, -, h3⟩
        rw [show d.newPresent = true from hev.newPresent.trans hp] at h3; cases h3
      constructor
      · unfold Dkg.qual
        rw [if_neg hnew, hr]; rfl
      · unfold Dkg.certified
        rw [if_neg hnew, hr]
        simp only [List.map_nil, Dkg.goodCount, add_zero, decide_eq_false_iff_not]
        omega
    · intro dd k k' pub hpub hver
      unfold Dkg.processDeal
      rw [if_neg (by rw [show d.newPresent = true from hev.newPresent.trans hp]; simp), hpub]
      simp only [hver, hv]
      rfl

namespace DkgPExample

open Kyber.Toy

/-- participant 0, with the key of participant 1 listed twice -/
def dup : Dkg (ZMod 11) (ZMod 11) := getDkg (newDistKeyGenerator envD.suite 3 [6, 10, 10] 2 7 [5])

theorem dup_ok : newDistKeyGenerator envD.suite 3 [6, 10, 10] 2 7 [5] = .ok dup ∧
    dup.verifiers = [] ∧ dup.newPresent = true ∧ dup.c.oldNodes = [6, 10, 10] := ⟨rfl, rfl, rfl, rfl⟩


example := C38_duplicates_partial envD ⟨3, [], none, [6, 10, 10], none, 2, 0⟩ 7 [5] dup dup_ok.1 dup_ok.2.2.1
  [.deals (fun _ => 3) (fun _ => 4) (fun _ => 5) 5 1, .timeout]

/-- the deal of participant 1 makes it panic -/
example : (dup.processDeal envD ((net envD).dealMsg envD 1 0) 5 1).2 = .panic := by
  decide +kernel

/-- a new node of a resharing whose new list has a duplicate: nothing is noticed -/
def dupNew : Dkg (ZMod 11) (ZMod 11) :=
  getDkg (newDistKeyHandler envD.suite ⟨3, [10, 4], some [1, 1], [6, 8, 8], none, 2, 2⟩ 0 [])

theorem dupNew_ok : newDistKeyHandler envD.suite ⟨3, [10, 4], some [1, 1], [6, 8, 8], none, 2, 2⟩ 0 [] =
    .ok dupNew ∧ dupNew.verifiers.keys = [0, 1] := ⟨rfl, rfl⟩

/-- a list without duplicates: every dealer has a verifier -/
example : ((net envD).D 0).verifiers.keys = [0, 1, 2] := rfl

end DkgPExample

open DkgPExample in
/-- C38 does not hold: a list with a duplicate is accepted. -/
theorem C38_violated : ¬ C38_statement := by
  intro h
  have := (h (ZMod 11) (ZMod 11) _ _ _ _ Toy.suite Toy.lawful _ _ _ dup dup_ok.1).2
  revert this; decide +kernel

open DkgPExample in
/-- C38 does not hold when resharing either; there a duplicate in the new list goes unnoticed. -/
theorem C38_violated_resharing : ¬ C38_statement := by
  intro h
  have := (h (ZMod 11) (ZMod 11) _ _ _ _ Toy.suite Toy.lawful _ _ _ dupNew dupNew_ok.1).2
  revert this; decide +kernel

open DkgPExample in
/-- C38: the generator that is returned for a list with a duplicate has no verifiers. -/
theorem C38_violated_verifiers : ¬ C38_verifiers_statement := by
  intro h
  have := h (ZMod 11) (ZMod 11) _ _ _ _ Toy.suite Toy.lawful _ _ _ dup dup_ok.1 dup_ok.2.2.1 0
    (by rw [dup_ok.2.2.2]; decide)
  rw [dup_ok.2.1] at this
  cases this

/-! ## C74: enough qualified dealers suffice -/

/-- C74, the intended property: if at least `t ≥ 1` dealers are qualified, `dist_key_share` of a fresh
DKG gives a key. -/
def C74_statement : Prop :=
  ∀ (F G : Type) (_ : Field F) (_ : AddCommGroup G) (_ : Module F G) (_ : DecidableEq G)
    (E : DkgEnv F G) (_ : E.suite.Lawful) (_ : Function.Injective E.suite.hash)
    (x : F) (ps : List G) (_ : ps.Nodup) (t : Nat) (_ : t ≠ 0) (secret : F)
    (draws : List F) (d0 : Dkg F G)
    (_ : newDistKeyGenerator E.suite x ps t secret draws = .ok d0) (cs : List (DCall F G))
    (ord : MapOrder) (Q : Finset Nat) (_ : ∀ i, i ∈ Q ↔ Qualified (dRun E d0 cs) i) (_ : t ≤ Q.card),
    ∃ k, (dRun E d0 cs).distKeyShare E.suite ord = .ok k

/-- C74, what holds: it gives a key if in addition the deals of the qualified dealers have arrived
and have the same number of commitments; and if not, it is an error, never a key and never a
panic. -/
theorem C74_finishes_partial (E : DkgEnv F G) (x : F) (ps : List G) (t : Nat) (ht : t ≠ 0)
    (secret : F) (draws : List F) (d0 : Dkg F G)
    (h0 : newDistKeyGenerator E.suite x ps t secret draws = .ok d0) (cs : List (DCall F G))
    (ord : MapOrder) (Q : Finset Nat) (hQ : ∀ i, i ∈ Q ↔ Qualified (dRun E d0 cs) i)
    (hcard : t ≤ Q.card) :
    ((∃ k, (dRun E d0 cs).distKeyShare E.suite ord = .ok k) ↔
      ∃ len, ∀ i ∈ Q, ∃ v dl, (dRun E d0 cs).verifiers.get i = some v ∧
        v.aggregator.deal = some dl ∧ dl.commitments.length = len) ∧
    ((∃ k, (dRun E d0 cs).distKeyShare E.suite ord = .ok k) ∨
      ∃ e, (dRun E d0 cs).distKeyShare E.suite ord = .err e) := by
  have hnp := (C37_threshold_partial E x ps t ht secret draws d0 h0 cs ord Q hQ).2.1
  refine ⟨?_, ?_⟩
  · constructor
    · rintro ⟨k, hk⟩
      obtain ⟨-, -, D, len, hD, -⟩ := (C33_dist_key_share_iff E x ps t secret draws d0 h0 cs ord k Q hQ).1 hk
      refine ⟨len, fun i hi => ?_⟩
      obtain ⟨v, h1, h2, h3⟩ := hD i hi
      exact ⟨v, D i, h1, h2, h3⟩
    · rintro ⟨len, hall⟩
      have : ∀ i, ∃ dl : VssP.Deal F G, i ∈ Q → ∃ v, (dRun E d0 cs).verifiers.get i = some v ∧
          v.aggregator.deal = some dl ∧ dl.commitments.length = len := by
        intro i
        by_cases hi : i ∈ Q
        · obtain ⟨v, dl, h1, h2, h3⟩ := hall i hi
          exact ⟨dl, fun _ => ⟨v, h1, h2, h3⟩⟩
        · exact ⟨⟨[], ⟨0, 0⟩, 0, []⟩, fun h => absurd h hi⟩
      choose D hD using this
      exact ⟨_, (C33_dist_key_share_iff E x ps t secret draws d0 h0 cs ord _ Q hQ).2
        ⟨hcard, Finset.card_pos.1 (by omega), D, len, fun i hi => hD i hi, rfl⟩⟩
  · cases hr : (dRun E d0 cs).distKeyShare E.suite ord with
    | ok k => exact Or.inl ⟨k, rfl⟩
    | err e => exact Or.inr ⟨e, rfl⟩
    | panic => exact absurd hr hnp

namespace DkgPExample

open Kyber.Toy

/-- Participant 2 withholds its deal from participant 0, and approves its own deal, as participant 1
does; all other messages arrive, then the timeout. -/
def withheld : List (DCall (ZMod 11) (ZMod 11)) :=
  [.deals ((net envDI).dh 0) ((net envDI).k 0) ((net envDI).rnd 0) 5 1,
   .deal ((net envDI).dealMsg envDI 1 0) 5 1,
   .response ((net envDI).respMsg envDI 0 1) 1, .response ((net envDI).respMsg envDI 0 2) 1,
   .response ((net envDI).respMsg envDI 1 2) 1,
   .response ((net envDI).respMsg envDI 2 1) 1, .response ((net envDI).respMsg envDI 2 2) 1,
   .timeout]

theorem withheld_fails :
    (dRun envDI ((net envDI).D 0) withheld).distKeyShare envDI.suite MapOrder.id = .err .dealsNotFound ∧
    (dRun envDI ((net envDI).D 0) withheld).qual MapOrder.id = [0, 1, 2] := by
  decide +kernel

/-- Participant 2 deals a polynomial of degree 2 instead of 1 to everybody. -/
def degree : List (DCall (ZMod 11) (ZMod 11)) :=
  [.deals ((net envDI).dh 0) ((net envDI).k 0) ((net envDI).rnd 0) 5 1,
   .deal ((net envDI).dealMsg envDI 1 0) 5 1,
   .deal (forged (sidOf [4, 9, 1]) [4, 9, 1] 0) 5 1,
   .response ((net envDI).respMsg envDI 0 1) 1, .response ((net envDI).respMsg envDI 0 2) 1,
   .response ((net envDI).respMsg envDI 1 2) 1,
   .response (approval (sidOf [4, 9, 1]) 5 2 1) 1]

theorem degree_fails :
    (dRun envDI ((net envDI).D 0) degree).distKeyShare envDI.suite MapOrder.id =
      .err (.poly .wrongCoefficientsNumber) ∧
    (dRun envDI ((net envDI).D 0) degree).qual MapOrder.id = [0, 1, 2] := by
  decide +kernel

/-- `C74_finishes_partial` applies to a history with one silent participant. -/
example : (dRun envDI ((net envDI).D 0) (withheld.take 5 ++ [.timeout])).qual MapOrder.id = [0, 1] ∧
    (dRun envDI ((net envDI).D 0) (withheld.take 5 ++ [.timeout])).distKeyShare envDI.suite MapOrder.id =
      .ok ⟨[(7 + 1) * 2, (5 + 6) * 2], ⟨0, (7 + 1) + (5 + 6)⟩, [7, 5]⟩ := by
  decide +kernel

end DkgPExample

open DkgPExample Kyber.Toy in
/-- C74 does not hold: a dealer that withholds one deal, and is approved by the others, makes the
participant without the deal fail for good, although all three dealers are qualified. -/
theorem C74_violated_withheld : ¬ C74_statement := by
  intro h
  have s0 : newDistKeyGenerator envDI.suite 3 [6, 10, 4] 2 7 [5] = .ok ((net envDI).D 0) := rfl
  obtain ⟨k, hk⟩ := h (ZMod 11) (ZMod 11) _ _ _ _ envDI envDI_lawful (fun _ _ h => h) 3 [6, 10, 4]
    (by decide +kernel) 2 (by decide) 7 [5] _ s0 withheld MapOrder.id _ (qual_iff s0 rfl withheld)
    (by rw [withheld_fails.2]; decide)
  rw [withheld_fails.1] at hk; cases hk

open DkgPExample Kyber.Toy in
/-- C74 does not hold: a dealer with a polynomial of too high degree is approved by everybody, and
then nobody gets a key. -/
theorem C74_violated_degree : ¬ C74_statement := by
  intro h
  have s0 : newDistKeyGenerator envDI.suite 3 [6, 10, 4] 2 7 [5] = .ok ((net envDI).D 0) := rfl
  obtain ⟨k, hk⟩ := h (ZMod 11) (ZMod 11) _ _ _ _ envDI envDI_lawful (fun _ _ h => h) 3 [6, 10, 4]
    (by decide +kernel) 2 (by decide) 7 [5] _ s0 degree MapOrder.id _ (qual_iff s0 rfl degree)
    (by rw [degree_fails.2]; decide)
  rw [degree_fails.1] at hk; cases hk

end Kyber.Props
