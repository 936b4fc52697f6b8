/-
C136: one participant that does not answer deals stops the Rabin key generation.
-/
import Verif.Props.DkgRabinMore
import Verif.Props.DkgRabinWithheld

set_option linter.unusedSectionVars false
set_option maxHeartbeats 1000000

namespace Kyber.Spec

open Kyber Kyber.VssR Kyber.DkgR

variable {F G : Type} [Field F] [AddCommGroup G] [DecidableEq G] [DistribSMul F G]

/-- Secret commitments that carry a valid signature of a member of `H` were made by that member. -/
def UnforgedC (E : Env F G) (ps : List G) (H : Finset Nat) (D : Nat → Dkg F G) (B : List (PublicR F G))
    (cs : Nat → List (QCall F G)) : Prop :=
  ∀ sc pub, PublicR.commits sc ∈ B → sc.index ∈ H → ps[sc.index]? = some pub →
    Schnorr.verify E.suite pub (sc.hash E.suite) sc.signature = .ok () →
    ∃ pre c post, cs sc.index = pre ++ c :: post ∧ saidR E (qRun E (D sc.index) pre) c = some (.commits sc)

/-- Participant `l` answers no deal of a member of `H`. -/
def SilentR (H : Finset Nat) (l : Nat) (B : List (PublicR F G)) : Prop :=
  ∀ r, PublicR.response r ∈ B → r.index ∈ H → r.response.index ≠ l

end Kyber.Spec

namespace Kyber.Props

open Kyber Kyber.Poly Kyber.Spec Kyber.VssR Kyber.DkgR

/-- C136, the intended property: the participants of `H` are enough for the threshold and follow the protocol
over a reliable broadcast channel, the others, fewer than `t`, say nothing. Then the participants of `H` can exchange
messages, and stop waiting for the others, such that all of them finish. -/
def C136_statement : Prop :=
  ∀ (F G : Type) (_ : Field F) (_ : AddCommGroup G) (_ : DecidableEq G) (_ : DistribSMul F G)
    (E : VssR.Env F G) (_ : E.suite.Lawful) (_ : E.prims.Lawful) (_ : ∀ b, Lin F (E.pickFrom b))
    (_ : ∀ b b', E.suite.hash b = E.suite.hash b' → b = b')
    (_ : ∀ d, E.codec.dec (E.codec.enc d) = some d) (_ : PrimsOkR E)
    (ps : List G) (_ : ps.Nodup) (t : Nat) (H : Finset Nat) (_ : t ≤ H.card) (_ : ps.length < H.card + t)
    (x s : Nat → F) (fD gD : Nat → List F) (D : Nat → Dkg F G)
    (_ : ∀ i ∈ H, newDistKeyGenerator E (x i) ps t (s i) (fD i) (gD i) = .ok (D i) ∧ (D i).index = i),
    ∃ B cs, BroadcastR E H D B cs ∧ UnforgedR E ps H D B cs ∧ UnforgedC E ps H D B cs ∧
      (∀ l ∉ H, SilentR H l B) ∧ ∀ i ∈ H, ∀ ord, (qRun E (D i) (cs i)).finished ord = true

section

variable {F G : Type} [Field F] [AddCommGroup G] [DecidableEq G] [DistribSMul F G]

/-- C136: fewer than `t` participants are faulty, and one participant `l` answers no deal of a correct dealer. Then no
correct participant ever reveals its commitments, finishes or gets a key, whatever the faulty ones send and
whether or not the timeout is set. -/
theorem C136_blocked (E : Env F G) (ps : List G) (t : Nat) (H : Finset Nat) (hfew : ps.length < H.card + t)
    (x s : Nat → F) (fD gD : Nat → List F) (D : Nat → Dkg F G)
    (hD : ∀ i ∈ H, newDistKeyGenerator E (x i) ps t (s i) (fD i) (gD i) = .ok (D i) ∧ (D i).index = i)
    (B : List (PublicR F G)) (cs : Nat → List (QCall F G)) (hB : BroadcastR E H D B cs) (hU : UnforgedR E ps H D B cs)
    (hC : UnforgedC E ps H D B cs) (l : Nat) (hl : l < ps.length) (hlH : l ∉ H) (hs : SilentR H l B)
    (i : Nat) (hi : i ∈ H) (pre post : List (QCall F G)) (hcs : cs i = pre ++ post) :
    (∀ k sc, ((qRun E (D i) pre).secretCommits E.suite k).2 ≠ .ok sc) ∧
    ∀ ord, (qRun E (D i) pre).finished ord = false ∧ ∀ k, (qRun E (D i) pre).distKeyShare ord ≠ .ok k := by
  have hlt : ∀ i ∈ H, i < ps.length := by
    intro i hi
    obtain ⟨h1, -⟩ := newDistKeyGenerator_ok (hD i hi).1
    rw [(hD i hi).2] at h1
    obtain ⟨hl, -⟩ := List.findIdx?_eq_some_iff_getElem.1 h1
    exact hl
  have hno : ∀ j ∈ H, ∀ pre post, cs j = pre ++ post → ∀ k sc,
      ((qRun E (D j) pre).secretCommits E.suite k).2 ≠ .ok sc := by
    intro j hj pre post hcs k sc hok
    rw [C82_silent_participant_blocks E (x j) ps t (s j) (fD j) (gD j) (D j) (hD j hj).1 pre k l hl
      (fun e => hlH (by rw [e, (hD j hj).2]; exact hj)) (by
        intro r k' hr hidx
        refine hs r ?_ (by rw [hidx, (hD j hj).2]; exact hj)
        rw [← hB.heard j hj, hcs]
        exact List.mem_filterMap.2 ⟨_, List.mem_append_left _ hr, rfl⟩)] at hok
    cases hok
  have hW : ∀ j ∈ H, WithheldR E ps j B := by
    rintro j hj sc pub hm rfl hp hv
    obtain ⟨pre, c, post, h1, h2⟩ := hC sc pub hm hj hp hv
    cases c with
    | ownCommits k =>
      have h2' : (match ((qRun E (D sc.index) pre).secretCommits E.suite k).2 with
        | .ok sc => some (PublicR.commits sc)
        | _ => none) = some (.commits sc) := h2
      split at h2'
      · rename_i sc' hok
        exact hno _ hj pre _ h1 k sc' hok
      · cases h2'
    | _ => unfold saidR at h2; simp only at h2; (try split at h2) <;> cases h2
  refine ⟨hno i hi pre post hcs, fun ord => ?_⟩
  have hn : (qRun E (D i) pre).verifiers.keys.Nodup := DkgR.reach_nodup (hD i hi).1 pre
  have hq : t ≤ (qualSet (qRun E (D i) pre)).card → ∃ j ∈ H, QualifiedR (qRun E (D i) pre) j := by
    intro ht
    by_contra hnone
    push Not at hnone
    have hsub : qualSet (qRun E (D i) pre) ⊆ Finset.range ps.length \ H := by
      intro j hj
      refine Finset.mem_sdiff.2 ⟨Finset.mem_range.2 ?_, fun hjH => hnone j hjH ((mem_qualSet hn).1 hj)⟩
      obtain ⟨v, a, h1, -⟩ := (mem_qualSet hn).1 hj
      have hst := ((setup_new (hD i hi).1).step (qRun_evolves E (D i) pre)).stored j v h1
      obtain ⟨-, -, -, -, k5, -⟩ := newDistKeyGenerator_ok (hD i hi).1
      rw [(qRun_evolves E (D i) pre).participants, k5] at hst
      obtain ⟨pub, -, -, -, -, -, -, hpub, -⟩ := hst
      exact (List.getElem?_eq_some_iff.1 hpub).1
    have h7 := Finset.card_le_card hsub
    have h8 : (Finset.range ps.length \ H).card = ps.length - H.card := by
      rw [Finset.card_sdiff_of_subset (fun a ha => Finset.mem_range.2 (hlt a ha)), Finset.card_range]
    have h9 := Finset.card_le_card (fun a ha => Finset.mem_range.2 (hlt a ha) : H ⊆ Finset.range ps.length)
    rw [Finset.card_range] at h9
    omega
  have hblock : ∀ j ∈ H, QualifiedR (qRun E (D i) pre) j → ∀ ord, (qRun E (D i) pre).finished ord = false ∧
      ∀ k, (qRun E (D i) pre).distKeyShare ord ≠ .ok k := fun j hj =>
    (withheld_blocks E ps t H hfew x s fD gD D hD B cs hB hU j
      (fun _ pre k post sc h => hno j hj pre _ h k sc) (hW j hj) i hi pre post hcs).2.2
  refine ⟨?_, fun k hk => ?_⟩
  · by_contra hf
    rw [Bool.not_eq_false] at hf
    obtain ⟨h1, -⟩ := (C39_finished_iff E (x i) ps t (s i) (fD i) (gD i) (D i) (hD i hi).1 pre ord _
      (fun i => mem_qualSet hn)).1 hf
    obtain ⟨j, hj, hjq⟩ := hq h1
    rw [(hblock j hj hjq ord).1] at hf
    cases hf
  · obtain ⟨h1, -⟩ := (C39_dist_key_share_iff E (x i) ps t (s i) (fD i) (gD i) (D i) (hD i hi).1 pre
      ord k _ (fun i => mem_qualSet hn)).1 hk
    obtain ⟨j, hj, hjq⟩ := hq h1
    exact (hblock j hj hjq ord).2 k hk

end

namespace SilentRExample

open Kyber.Toy DkgRExample AgreementExample

/-- Participant 2 says nothing; the others wait for it no longer. -/
def boardS : List RMsg := [.resp 0 1, .resp 1 0, .timeout]

def publicS : List (PublicR (ZMod 11) (ZMod 11)) := boardS.filterMap (fun m => heardR (toCall 0 m))

/-- What participants 0 and 1 do. -/
def doingS (i : Nat) : List RMsg := [.deals, .deal (1 - i)] ++ boardS ++ [.ownCommits]

def callsS (i : Nat) : List (QCall (ZMod 11) (ZMod 11)) := (doingS i).map (toCall i)

/-- Whether everything said is on the board. -/
def publishedS : Dkg (ZMod 11) (ZMod 11) → List (QCall (ZMod 11) (ZMod 11)) → Bool
  | _, [] => true
  | d, c :: cs => (match saidR envRI d c with
    | some m => decide (m ∈ publicS)
    | none => true) && publishedS (qStep envRI d c) cs

theorem publishedS_spec (d : Dkg (ZMod 11) (ZMod 11)) (cs : List (QCall (ZMod 11) (ZMod 11)))
    (h : publishedS d cs = true) : PublishesR envRI publicS d cs := by
  induction cs generalizing d with
  | nil => trivial
  | cons c cs ih =>
    unfold publishedS at h
    rw [Bool.and_eq_true] at h
    refine ⟨fun m hm => ?_, ih _ h.2⟩
    have := h.1
    rw [hm] at this
    exact of_decide_eq_true this

theorem publishedS0 : publishedS ((netR envRI).D 0) (callsS 0) = true := by decide +kernel
theorem publishedS1 : publishedS ((netR envRI).D 1) (callsS 1) = true := by decide +kernel

theorem broadcastS : BroadcastR envRI {0, 1} (netR envRI).D publicS callsS where
  heard i hi := by
    simp only [Finset.mem_insert, Finset.mem_singleton] at hi
    rcases hi with rfl | rfl <;> rfl
  said i hi := by
    simp only [Finset.mem_insert, Finset.mem_singleton] at hi
    rcases hi with rfl | rfl
    · exact publishedS_spec _ _ publishedS0
    · exact publishedS_spec _ _ publishedS1
  dealt i hi := by
    simp only [Finset.mem_insert, Finset.mem_singleton] at hi
    rcases hi with rfl | rfl
    · obtain ⟨out, h1, h2⟩ := dealt 0 (by decide)
      refine ⟨[], _, _, _, _, out, rfl, h1, fun j hj hne => ⟨_, 5, by
        simp only [Finset.mem_insert, Finset.mem_singleton] at hj
        obtain rfl : j = 1 := by omega
        rw [h2, if_pos (by decide)], ?_⟩⟩
      simp only [Finset.mem_insert, Finset.mem_singleton] at hj
      obtain rfl : j = 1 := by omega
      exact List.mem_map.2 ⟨.deal 0, by decide, rfl⟩
    · obtain ⟨out, h1, h2⟩ := dealt 1 (by decide)
      refine ⟨[], _, _, _, _, out, rfl, h1, fun j hj hne => ⟨_, 5, by
        simp only [Finset.mem_insert, Finset.mem_singleton] at hj
        obtain rfl : j = 0 := by omega
        rw [h2, if_pos (by decide)], ?_⟩⟩
      simp only [Finset.mem_insert, Finset.mem_singleton] at hj
      obtain rfl : j = 0 := by omega
      exact List.mem_map.2 ⟨.deal 1, by decide, rfl⟩

/-- Whether a message belongs to the second phase or answers in the name of participant 2. -/
def otherS : PublicR (ZMod 11) (ZMod 11) → Bool
  | .response r => decide (r.response.index = 2)
  | .timeout => false
  | _ => true

theorem kindsS : ∀ m ∈ publicS, otherS m = false := by decide +kernel

theorem unforgedS : UnforgedR envRI [6, 10, 4] {0, 1} (netR envRI).D publicS callsS := by
  intro p rc pub hp
  exact absurd (kindsS _ (List.mem_of_getElem? hp)) (by simp [otherS])

theorem unforgedCS : UnforgedC envRI [6, 10, 4] {0, 1} (netR envRI).D publicS callsS := by
  intro sc pub hm
  exact absurd (kindsS _ hm) (by simp [otherS])

theorem silentS : SilentR {0, 1} 2 publicS := by
  intro r hm _ h
  exact absurd (kindsS _ hm) (by simp [otherS, h])

/-- A case for `C136_blocked`: participants 0 and 1, with threshold 2, have approved each other's deals and regard both
dealers as qualified after the timeout. -/
example (ord : MapOrder) : qualSet (qRun envRI ((netR envRI).D 0) (callsS 0)) = {0, 1} ∧
    (qRun envRI ((netR envRI).D 0) (callsS 0)).finished ord = false :=
  ⟨by decide +kernel, ((C136_blocked envRI [6, 10, 4] 2 {0, 1} (by decide) _ _ _ _ _ WithheldExample.startW publicS
    callsS broadcastS unforgedS unforgedCS 2 (by decide) (by decide) silentS 0 (by decide) (callsS 0) []
    (by simp)).2 ord).1⟩

end SilentRExample

open DkgRExample Toy in
/-- C136 does not hold: with participant 2 of three silent, and threshold 2, the other two never finish. The reason is
that `set_timeout` does not reach the own dealer, whose deal `secret_commits` asks to be certified. -/
theorem C136_violated : ¬ C136_statement := by
  intro h
  obtain ⟨B, cs, h1, h2, h3, h4, h5⟩ := h (ZMod 11) (ZMod 11) _ _ _ _ envRI envRI_lawful prims_lawful
    (fun _ => ⟨fun a b => add_smul a b _, fun a b => mul_smul a b _⟩) (fun _ _ h => h) codecR_lawful primsOkRI
    [6, 10, 4] (by decide +kernel) 2 {0, 1} (by decide) (by decide) (netR envRI).x (netR envRI).sec
    (netR envRI).fD (netR envRI).gD (netR envRI).D WithheldExample.startW
  have := ((C136_blocked envRI [6, 10, 4] 2 {0, 1} (by decide) _ _ _ _ _ WithheldExample.startW B cs h1 h2 h3 2
    (by decide) (by decide) (h4 2 (by decide)) 0 (by decide) (cs 0) [] (by simp)).2 MapOrder.id).1
  rw [h5 0 (by decide) MapOrder.id] at this
  cases this

end Kyber.Props
