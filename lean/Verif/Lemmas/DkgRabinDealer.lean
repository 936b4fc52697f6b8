/-
The responses that the dealer part of a Rabin DKG participant knows, and further facts about single
calls.
-/
import Verif.Lemmas.DkgRabinInv

set_option linter.unusedSectionVars false

namespace Kyber.DkgR

open Kyber.Poly Kyber.VssR Kyber.Spec
open Kyber.VssP (VssError EncryptedDeal)

variable {F G : Type} [Field F] [AddCommGroup G] [SMul F G] [DecidableEq G]

omit [Field F] [AddCommGroup G] [SMul F G] [DecidableEq G] in
theorem addResponse_get (a : Aggregator F G) (r : VssP.Response) (l : Nat)
    (h : (a.addResponse r).1.responses.get l ≠ none) : l = r.index ∨ a.responses.get l ≠ none := by
  unfold Aggregator.addResponse at h
  split at h
  · exact Or.inr h
  · split at h
    · exact Or.inr h
    · change (a.responses.insert r.index r).get l ≠ none at h
      rw [AMap.get_insert] at h
      split at h
      · left; assumption
      · exact Or.inr h

theorem dealer_response_get (E : Env F G) (dl : Dealer F G) (r : VssP.Response) (k : F) (l : Nat)
    (h : (dl.processResponse E r k).1.aggregator.responses.get l ≠ none) :
    l = r.index ∨ dl.aggregator.responses.get l ≠ none := by
  have hagg : (dl.processResponse E r k).1.aggregator = (dl.aggregator.verifyResponse E.suite r).1 := by
    unfold Dealer.processResponse
    simp only
    split
    · rfl
    · rfl
    · split
      · rfl
      · split <;> rfl
  rw [hagg] at h
  unfold Aggregator.verifyResponse at h
  split at h
  · exact Or.inr h
  · split at h
    · exact Or.inr h
    · split at h
      · exact addResponse_get _ _ _ h
      · exact Or.inr h
      · exact Or.inr h

theorem dealsLoop_get (E : Env F G) (encs : List (EncryptedDeal G)) (vk : F) (l : List Nat)
    (d : Dkg F G) (dd : AMap (Deal G)) (j : Nat)
    (h : (Dkg.dealsLoop E encs vk l d dd).1.dealer.aggregator.responses.get j ≠ none) :
    j = d.index ∨ d.dealer.aggregator.responses.get j ≠ none := by
  induction l generalizing d dd with
  | nil => exact Or.inr h
  | cons i l ih =>
    unfold Dkg.dealsLoop at h
    split at h
    · exact Or.inr h
    · rename_i e he
      split at h
      · split at h
        · exact ih d dd h
        · have h0 := processDeal_evolves E d ⟨d.index, e⟩ vk
          have hdl := processDeal_dealer E d ⟨d.index, e⟩ vk
          split at h
          · rename_i d' r hd'
            rw [hd'] at h0 hdl
            simp only at hdl
            have hidx : d'.index = d.index := h0.index
            split at h
            · rw [hdl] at h; exact Or.inr h
            · rcases ih _ _ h with h1 | h1
              · exact Or.inl (h1.trans hidx)
              · change (d'.dealer.aggregator.unsafeSetResponseDkg d'.index true).responses.get j ≠ none at h1
                rcases addResponse_get _ _ _ h1 with h2 | h2
                · exact Or.inl (h2.trans hidx)
                · rw [hdl] at h2; exact Or.inr h2
          · rename_i d' r hd'; rw [hd'] at hdl; simp only at hdl; rw [hdl] at h; exact Or.inr h
          · rename_i d' hd'; rw [hd'] at hdl; simp only at hdl; rw [hdl] at h; exact Or.inr h
      · exact ih d _ h

/-- The dealer knows a response only if it is its own or was delivered. -/
theorem qStep_dealer_get (E : Env F G) (d : Dkg F G) (c : QCall F G) (j : Nat)
    (h : (qStep E d c).dealer.aggregator.responses.get j ≠ none) :
    d.dealer.aggregator.responses.get j ≠ none ∨ j = d.index ∨
    ∃ r k, c = .response r k ∧ r.index = d.index ∧ r.response.index = j := by
  cases c with
  | deals dh k vk =>
    change (d.deals E dh k vk).1.dealer.aggregator.responses.get j ≠ none at h
    unfold Dkg.deals at h
    split at h
    · exact Or.inl h
    · exact Or.inl h
    · rcases dealsLoop_get E _ _ _ _ _ _ h with h | h
      · exact Or.inr (Or.inl h)
      · exact Or.inl h
  | deal dd k =>
    left
    have := processDeal_dealer E d dd k
    change (d.processDeal E dd k).1.dealer.aggregator.responses.get j ≠ none at h
    rw [this] at h; exact h
  | response r k =>
    change (d.processResponse E r k).1.dealer.aggregator.responses.get j ≠ none at h
    unfold Dkg.processResponse at h
    split at h
    · exact Or.inl h
    · rename_i v hv
      split at h
      · exact Or.inl h
      · exact Or.inl h
      · simp only at h
        split at h
        · exact Or.inl h
        · rename_i hi
          simp only [ne_eq, not_not] at hi
          have key : ∀ dl, (d.dealer.processResponse E r.response k).1 = dl →
              dl.aggregator.responses.get j ≠ none →
              d.dealer.aggregator.responses.get j ≠ none ∨ j = d.index ∨
              ∃ r' k', QCall.response r k = (.response r' k' : QCall F G) ∧ r'.index = d.index ∧
                r'.response.index = j := by
            intro dl hdl hne
            rw [← hdl] at hne
            rcases dealer_response_get E _ _ _ _ hne with h | h
            · exact Or.inr (Or.inr ⟨r, k, rfl, hi, h.symm⟩)
            · exact Or.inl h
          split at h
          · rename_i dl e hdl
            exact key dl (congrArg Prod.fst hdl) h
          · rename_i dl hdl
            exact key dl (congrArg Prod.fst hdl) h
          · rename_i dl hdl
            exact key dl (congrArg Prod.fst hdl) h
          · rename_i dl jj hdl
            split at h
            · exact key dl (congrArg Prod.fst hdl) h
            · exact key dl (congrArg Prod.fst hdl) h
            · exact key dl (congrArg Prod.fst hdl) h
  | justification jj =>
    left
    have : (d.processJustification E jj).1.dealer = d.dealer := by
      unfold Dkg.processJustification; split <;> rfl
    change (d.processJustification E jj).1.dealer.aggregator.responses.get j ≠ none at h
    rw [this] at h; exact h
  | timeout => exact Or.inl h
  | ownCommits k =>
    left
    have : (d.secretCommits E.suite k).1.dealer = d.dealer := by
      unfold Dkg.secretCommits
      split
      · rfl
      · split <;> rfl
    change (d.secretCommits E.suite k).1.dealer.aggregator.responses.get j ≠ none at h
    rw [this] at h; exact h
  | commits ord sc k =>
    left
    have : (d.processSecretCommits E ord sc k).1.dealer = d.dealer := by
      rcases processSecretCommits_cases E ord d sc k with ⟨h, -⟩ | ⟨_, _, _, -, -, -, -, -, -, -, h⟩ <;>
        rw [h]
    change (d.processSecretCommits E ord sc k).1.dealer.aggregator.responses.get j ≠ none at h
    rw [this] at h; exact h
  | complaint ord cc k =>
    left
    have : (d.processComplaintCommits E ord cc k).1.dealer = d.dealer := by
      rcases processComplaintCommits_cases E ord d cc k with ⟨h | ⟨v, hv, h⟩, -⟩ |
        ⟨_, v, _, _, _, -, -, -, hv, -, -, -, -, -, rc, -, -, -, -, -, h⟩ <;> rw [h] <;> rfl
    change (d.processComplaintCommits E ord cc k).1.dealer.aggregator.responses.get j ≠ none at h
    rw [this] at h; exact h
  | reconstruct ord rc =>
    left
    have : (d.processReconstructCommits E ord rc).1.dealer = d.dealer := by
      rcases processReconstructCommits_cases E ord d rc with (h | ⟨arr, h, -⟩) |
        ⟨_, _, _, -, -, -, -, -, -, -, -, h⟩ <;> rw [h]
    change (d.processReconstructCommits E ord rc).1.dealer.aggregator.responses.get j ≠ none at h
    rw [this] at h; exact h

theorem qRun_dealer_get (E : Env F G) (d : Dkg F G) (cs : List (QCall F G)) (j : Nat)
    (h : (qRun E d cs).dealer.aggregator.responses.get j ≠ none) :
    d.dealer.aggregator.responses.get j ≠ none ∨ j = d.index ∨
    ∃ r k, QCall.response r k ∈ cs ∧ r.index = d.index ∧ r.response.index = j := by
  induction cs generalizing d with
  | nil => exact Or.inl h
  | cons c cs ih =>
    have hidx := (qStep_evolves E d c).index
    rcases ih (qStep E d c) h with h1 | h1 | ⟨r, k, h1, h2, h3⟩
    · rcases qStep_dealer_get E d c j h1 with h2 | h2 | ⟨r, k, rfl, h2, h3⟩
      · exact Or.inl h2
      · exact Or.inr (Or.inl h2)
      · exact Or.inr (Or.inr ⟨r, k, by simp, h2, h3⟩)
    · exact Or.inr (Or.inl (h1.trans hidx))
    · exact Or.inr (Or.inr ⟨r, k, by simp [h1], h2.trans hidx, h3⟩)

/-- Reconstructed dealers are not forgotten. -/
theorem qStep_reconstructed (E : Env F G) (d : Dkg F G) (c : QCall F G) (j : Nat)
    (h : d.reconstructed.get j ≠ none) : (qStep E d c).reconstructed.get j ≠ none := by
  have same : ∀ d' : Dkg F G, d'.reconstructed = d.reconstructed → d'.reconstructed.get j ≠ none :=
    fun d' hd => by rw [hd]; exact h
  cases c with
  | deals dh k vk =>
    apply same
    show (d.deals E dh k vk).1.reconstructed = _
    unfold Dkg.deals
    split
    · rfl
    · rfl
    · exact (dealsLoop_cr E _ _ _ _ _).2
  | deal dd k =>
    apply same
    show (d.processDeal E dd k).1.reconstructed = _
    rcases processDeal_cases E d dd k with (⟨e, h⟩ | h) | ⟨_, _, _, _, -, -, -, -, h⟩ <;> rw [h]
  | response r k => exact same _ (processResponse_cr E d r k).2
  | justification jj =>
    apply same
    show (d.processJustification E jj).1.reconstructed = _
    unfold Dkg.processJustification
    split <;> rfl
  | timeout => exact same _ rfl
  | ownCommits k =>
    apply same
    show (d.secretCommits E.suite k).1.reconstructed = _
    unfold Dkg.secretCommits
    split
    · rfl
    · split <;> rfl
  | commits ord sc k =>
    apply same
    show (d.processSecretCommits E ord sc k).1.reconstructed = _
    rcases processSecretCommits_cases E ord d sc k with ⟨h, -⟩ | ⟨_, _, _, -, -, -, -, -, -, -, h⟩ <;>
        rw [h]
  | complaint ord cc k =>
    apply same
    show (d.processComplaintCommits E ord cc k).1.reconstructed = _
    rcases processComplaintCommits_cases E ord d cc k with ⟨h | ⟨v, hv, h⟩, -⟩ |
        ⟨_, v, _, _, _, -, -, -, hv, -, -, -, -, -, rc, -, -, -, -, -, h⟩ <;> rw [h] <;> rfl
  | reconstruct ord rc =>
    show (d.processReconstructCommits E ord rc).1.reconstructed.get j ≠ none
    rcases processReconstructCommits_cases E ord d rc with (h' | ⟨arr, h', -⟩) |
        ⟨_, _, _, -, -, -, -, -, -, -, -, h'⟩ <;> rw [h']
    · exact h
    · exact h
    · show (d.reconstructed.insert rc.dealerIndex true).get j ≠ none
      rw [AMap.get_insert]
      split
      · simp
      · exact h

end Kyber.DkgR
