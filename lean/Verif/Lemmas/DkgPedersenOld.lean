/-
What a node leaving the group keeps when resharing with the Pedersen DKG.
-/
import Verif.Props.DkgPedersen

set_option linter.unusedSectionVars false

namespace Kyber.DkgP

open Kyber.Poly Kyber.Spec Kyber.VssP

variable {F G : Type} [Field F] [AddCommGroup G] [SMul F G] [DecidableEq G]

theorem processDeal_old (E : DkgEnv F G) (d : Dkg F G) (dd : Deal G) (k k' : F) :
    (d.processDeal E dd k k').1.oldAggregators = d.oldAggregators := by
  unfold Dkg.processDeal
  split; · rfl
  split; · rfl
  split; · rfl
  · rfl
  split; · rfl
  split
  · rfl
  · rfl
  · simp only
    split
    · split
      · split <;> rfl
      · rfl
    · rfl

theorem dealsLoop_old (E : DkgEnv F G) (encs : List (EncryptedDeal G)) (rnd : Nat → F) (vk vk' : F)
    (l : List Nat) (d : Dkg F G) (dd : AMap (Deal G)) :
    (Dkg.dealsLoop E encs rnd vk vk' l d dd).1.oldAggregators = d.oldAggregators := by
  induction l generalizing d dd with
  | nil => rfl
  | cons i l ihl =>
    unfold Dkg.dealsLoop
    split
    · rfl
    · rename_i e he
      simp only
      split
      · split
        · exact ihl _ _
        · have h1 := processDeal_old E { d with processed := true } (d.signDeal E e (rnd i)) vk vk'
          split
          · rename_i d' r hd'
            rw [hd'] at h1
            split
            · exact h1
            · rw [ihl]; exact h1
          · rename_i d' r hd'
            rw [hd'] at h1; exact h1
          · rename_i d' hd'
            rw [hd'] at h1; exact h1
      · exact ihl _ _

/-- The aggregator of a dealer at a leaving node. -/
def oldAgg (d : Dkg F G) (i : Nat) : Aggregator F G :=
  (d.oldAggregators.get i).getD (newEmptyAggregator d.c.newNodes)

/-- Only responses change what a leaving node keeps. -/
theorem dStep_old (E : DkgEnv F G) (d : Dkg F G) (c : DCall F G) :
    (dStep E d c).oldAggregators = match c with
      | .response r _ =>
        if d.isResharing = true ∧ d.canIssue = true ∧ d.newPresent = false then
          d.oldAggregators.insert r.index ((oldAgg d r.index).verifyResponse E.suite r.response).1
        else d.oldAggregators
      | _ => d.oldAggregators := by
  cases c with
  | deals dh k rnd vk vk' =>
    show (d.deals E dh k rnd vk vk').1.oldAggregators = _
    unfold Dkg.deals
    split
    · rfl
    split
    · rfl
    · rfl
    · exact dealsLoop_old E _ _ _ _ _ _ _
  | deal dd k k' => exact processDeal_old E d dd k k'
  | response r k =>
    show (d.processResponse E r k).1.oldAggregators = _
    unfold Dkg.processResponse
    simp only
    split
    · unfold Dkg.processResharingResponse
      simp only
      split
      · rfl
      · rfl
      · split
        · rfl
        · split
          · rfl
          · split <;> rfl
    · split
      · rfl
      · split
        · rfl
        · rfl
        · split
          · rfl
          · split
            · rfl
            · rfl
            · rfl
            · split <;> rfl
  | justification j =>
    show (d.processJustification E j).1.oldAggregators = _
    unfold Dkg.processJustification
    split <;> rfl
  | timeout => rfl

/-- What is known about the aggregator of a dealer at a leaving node. -/
structure OldOk (nodes : List G) (a : Aggregator F G) : Prop where
  verifiers : a.verifiers = nodes
  t : a.t = 0
  sid : a.sid = []
  bad : a.badDealer = false
  timeout : a.timeout = false

theorem OldOk.verifyResponse {nodes : List G} {a : Aggregator F G} (h : OldOk nodes a)
    (S : Suite F G) (r : VssP.Response) :
    OldOk nodes (a.verifyResponse S r).1 ∧
    (∀ l, (a.verifyResponse S r).1.responses.get l = some r' ↔
      a.responses.get l = some r' ∨ (a.responses.get l = none ∧ r' = r ∧ r.index = l ∧
        Authentic S nodes r)) := by
  obtain ⟨h1, h2, h3, h4, h5⟩ := h
  unfold Aggregator.verifyResponse
  rw [if_neg (by rw [h3]; simp)]
  unfold VssP.findPub
  rw [h1]
  cases hp : nodes[r.index]? with
  | none =>
    refine ⟨⟨h1, h2, h3, h4, h5⟩, fun l => ?_⟩
    constructor
    · exact Or.inl
    · rintro (h | ⟨-, -, -, P, hP, -⟩)
      · exact h
      · rw [hp] at hP; cases hP
  | some P =>
    have hno : Schnorr.verify S P (r.hash S) r.signature ≠ .ok () → ∀ l, a.responses.get l = some r' ↔
      a.responses.get l = some r' ∨ (a.responses.get l = none ∧ r' = r ∧ r.index = l ∧
        Authentic S nodes r) := by
      intro hne l
      constructor
      · exact Or.inl
      · rintro (h | ⟨-, -, -, Q, hQ, hv⟩)
        · exact h
        · rw [hp] at hQ; cases hQ; exact absurd hv hne
    cases hv : Schnorr.verify S P (r.hash S) r.signature with
    | err e => simp only [hv]; exact ⟨⟨h1, h2, h3, h4, h5⟩, hno (by rw [hv]; simp)⟩
    | panic => simp only [hv]; exact ⟨⟨h1, h2, h3, h4, h5⟩, hno (by rw [hv]; simp)⟩
    | ok u =>
      simp only [hv]
      unfold Aggregator.addResponse
      rw [if_neg (by unfold VssP.findPub; rw [h1, hp]; simp)]
      split
      · rename_i hs
        refine ⟨⟨h1, h2, h3, h4, h5⟩, fun l => ?_⟩
        constructor
        · exact Or.inl
        · rintro (h | ⟨hn, -, rfl, -⟩)
          · exact h
          · rw [hn] at hs; cases hs
      · rename_i hs
        refine ⟨⟨h1, h2, h3, h4, h5⟩, fun l => ?_⟩
        simp only
        rw [AMap.get_insert]
        have hnone : a.responses.get r.index = none := by
          cases hq : a.responses.get r.index with
          | none => rfl
          | some q => rw [hq] at hs; exact absurd rfl hs
        by_cases hl : l = r.index
        · subst hl
          rw [if_pos rfl, hnone]
          constructor
          · intro h; cases h; exact Or.inr ⟨rfl, rfl, rfl, P, hp, hv⟩
          · rintro (h | ⟨-, rfl, -⟩)
            · cases h
            · rfl
        · rw [if_neg hl]
          constructor
          · exact Or.inl
          · rintro (h | ⟨-, -, h, -⟩)
            · exact h
            · exact absurd h.symm hl

/-- A leaving node keeps, for each dealer and new node, the first authentic response. -/
theorem old_responses (E : DkgEnv F G) (d0 : Dkg F G) (hl : d0.isResharing = true)
    (hi : d0.canIssue = true) (hn : d0.newPresent = false) (h0 : d0.oldAggregators = [])
    (cs : List (DCall F G)) (i : Nat) :
    OldOk d0.c.newNodes (oldAgg (dRun E d0 cs) i) ∧
    (∀ l r, (oldAgg (dRun E d0 cs) i).responses.get l = some r ↔
      firstHeard E.suite d0.c.newNodes cs i l = some r) ∧
    ((dRun E d0 cs).oldAggregators.get i = none → ∀ l, firstHeard E.suite d0.c.newNodes cs i l = none) := by
  induction cs using List.reverseRecOn with
  | nil =>
    have : oldAgg d0 i = newEmptyAggregator d0.c.newNodes := by
      unfold oldAgg; rw [h0]; rfl
    show OldOk _ (oldAgg d0 i) ∧ _
    refine ⟨?_, ?_, ?_⟩
    · rw [this]; exact ⟨rfl, rfl, rfl, rfl, rfl⟩
    · intro l r
      show (oldAgg d0 i).responses.get l = some r ↔ _
      rw [this]
      simp [firstHeard, newEmptyAggregator]
    · intro _ l; rfl
  | append_singleton cs c ih =>
    obtain ⟨ih1, ih2, ih3⟩ := ih
    have hev := dRun_evolves E d0 cs
    have hrun : dRun E d0 (cs ++ [c]) = dStep E (dRun E d0 cs) c := by
      simp [dRun, List.foldl_append]
    have hold := dStep_old E (dRun E d0 cs) c
    have hc : (dRun E d0 (cs ++ [c])).c = (dRun E d0 cs).c := by
      rw [hrun]; exact (dStep_evolves E _ c).c
    rw [← hrun] at hold
    have hfh : ∀ l, firstHeard E.suite d0.c.newNodes (cs ++ [c]) i l =
        (firstHeard E.suite d0.c.newNodes cs i l).or (firstHeard E.suite d0.c.newNodes [c] i l) := by
      intro l; unfold firstHeard; rw [List.findSome?_append]
    have hsame : (dRun E d0 (cs ++ [c])).oldAggregators.get i = (dRun E d0 cs).oldAggregators.get i →
        (∀ l, firstHeard E.suite d0.c.newNodes [c] i l = none) →
        OldOk d0.c.newNodes (oldAgg (dRun E d0 (cs ++ [c])) i) ∧
        (∀ l r, (oldAgg (dRun E d0 (cs ++ [c])) i).responses.get l = some r ↔
          firstHeard E.suite d0.c.newNodes (cs ++ [c]) i l = some r) ∧
        ((dRun E d0 (cs ++ [c])).oldAggregators.get i = none →
          ∀ l, firstHeard E.suite d0.c.newNodes (cs ++ [c]) i l = none) := by
      intro h1 h2
      have : oldAgg (dRun E d0 (cs ++ [c])) i = oldAgg (dRun E d0 cs) i := by
        unfold oldAgg; rw [h1, hc]
      rw [this, h1]
      refine ⟨ih1, ?_, ?_⟩
      · intro l r; rw [hfh, h2, Option.or_none, ih2]
      · intro h l; rw [hfh, h2, Option.or_none, ih3 h]
    cases c with
    | deals dh k rnd vk vk' => exact hsame (by rw [hold]) (fun l => rfl)
    | deal dd k k' => exact hsame (by rw [hold]) (fun l => rfl)
    | justification j => exact hsame (by rw [hold]) (fun l => rfl)
    | timeout => exact hsame (by rw [hold]) (fun l => rfl)
    | response r k =>
      simp only at hold
      rw [if_pos ⟨hev.isResharing.trans hl, hev.canIssue.trans hi, hev.newPresent.trans hn⟩] at hold
      by_cases hri : r.index = i
      · subst hri
        have hnew : oldAgg (dRun E d0 (cs ++ [.response r k])) r.index =
            ((oldAgg (dRun E d0 cs) r.index).verifyResponse E.suite r.response).1 := by
          unfold oldAgg
          rw [hold, AMap.get_insert, if_pos rfl]; rfl
        refine ⟨?_, ?_, ?_⟩
        · rw [hnew]
          exact (ih1.verifyResponse (r' := r.response) E.suite r.response).1
        · intro l r'
          rw [hnew, (ih1.verifyResponse E.suite r.response).2, hfh, ih2]
          have hnone : (oldAgg (dRun E d0 cs) r.index).responses.get l = none ↔
              firstHeard E.suite d0.c.newNodes cs r.index l = none := by
            constructor
            · intro h
              cases hq : firstHeard E.suite d0.c.newNodes cs r.index l with
              | none => rfl
              | some q => rw [(ih2 l q).2 hq] at h; cases h
            · intro h
              cases hq : (oldAgg (dRun E d0 cs) r.index).responses.get l with
              | none => rfl
              | some q => rw [(ih2 l q).1 hq] at h; cases h
          rw [hnone]
          cases hq : firstHeard E.suite d0.c.newNodes cs r.index l with
          | some q => simp
          | none =>
            simp only [reduceCtorEq, true_and, false_or, Option.none_or]
            unfold firstHeard
            simp only [List.findSome?_cons, List.findSome?_nil, true_and]
            split
            · rename_i h
              split at h
              · rename_i hh
                cases h
                constructor
                · rintro ⟨rfl, -⟩; rfl
                · intro h; cases h; exact ⟨rfl, hh.2⟩
              · cases h
            · rename_i h
              split at h
              · cases h
              · rename_i hh
                constructor
                · rintro ⟨-, h1⟩; exact absurd ⟨rfl, h1⟩ hh
                · intro h; cases h
        · intro h
          rw [hold, AMap.get_insert, if_pos rfl] at h
          cases h
      · refine hsame (by rw [hold, AMap.get_insert, if_neg (Ne.symm hri)]) (fun l => ?_)
        unfold firstHeard
        simp [hri]

end Kyber.DkgP
