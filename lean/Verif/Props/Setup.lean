/-
Property C122: which parameters the constructors accept (`new_dealer`, `new_verifier`,
`new_dist_key_generator`, `new_dist_key_handler`, `new_dss`).
-/
import Verif.Props.DkgPedersenHonest
import Verif.Props.DkgRabin
import Verif.Model.Dss
import Verif.Spec.ToyDkg
import Verif.Spec.ToyDkgR

set_option linter.unusedSectionVars false

namespace Kyber.Props

open Kyber Kyber.Poly Kyber.Spec

variable {F G : Type} [Field F] [AddCommGroup G] [DecidableEq G] [SMul F G]

/-- `i` is the first place where `p` is listed. -/
def FirstAt (pubs : List G) (p : G) (i : Nat) : Prop := pubs[i]? = some p ∧ ∀ j < i, pubs[j]? ≠ some p

private theorem find_cases (pubs : List G) (p : G) :
    (p ∈ pubs ∧ ∃ i, pubs.findIdx? (fun q => decide (q = p)) = some i ∧ FirstAt pubs p i) ∨
    (p ∉ pubs ∧ pubs.findIdx? (fun q => decide (q = p)) = none) := by
  cases h : pubs.findIdx? (fun q => decide (q = p)) with
  | none =>
    right
    rw [List.findIdx?_eq_none_iff] at h
    exact ⟨fun hm => by simpa using h p hm, rfl⟩
  | some i =>
    left
    obtain ⟨hl, he, hlt⟩ := List.findIdx?_eq_some_iff_getElem.1 h
    simp only [decide_eq_true_eq] at he
    refine ⟨he ▸ List.getElem_mem hl, i, rfl, by rw [List.getElem?_eq_getElem hl, he], fun j hj hc => ?_⟩
    rw [List.getElem?_eq_getElem (by omega), Option.some.injEq] at hc
    exact hlt j hj (by simpa using hc)

/-! ## Secret sharing -/

/-- C122: `new_verifier` of both variants: the own key must be among the verifiers; the index is its first
place. Otherwise an error. -/
theorem C122_new_verifier (S : Suite F G) (x : F) (dealer : G) (pubs : List G) :
    (x • S.base ∈ pubs →
      (∃ v, VssP.newVerifier S x dealer pubs = .ok v ∧ FirstAt pubs (x • S.base) v.index ∧ v.longterm = x ∧
        v.pubb = x • S.base ∧ v.dealer = dealer ∧ v.verifiers = pubs ∧ v.aggregator.responses = [] ∧
        v.aggregator.deal = none) ∧
      ∃ v, VssR.newVerifier S x dealer pubs = .ok v ∧ FirstAt pubs (x • S.base) v.index ∧ v.longterm = x ∧
        v.pubb = x • S.base ∧ v.dealer = dealer ∧ v.verifiers = pubs ∧ v.aggregator = none) ∧
    (x • S.base ∉ pubs →
      VssP.newVerifier S x dealer pubs = .err .publicKeyNotFound ∧
      VssR.newVerifier S x dealer pubs = .err .publicKeyNotFound) := by
  unfold VssP.newVerifier VssR.newVerifier
  rcases find_cases pubs (x • S.base) with ⟨hm, i, hi, hf⟩ | ⟨hm, hi⟩
  · simp only [hi]
    exact ⟨fun _ => ⟨⟨_, rfl, hf, rfl, rfl, rfl, rfl, rfl, rfl⟩, ⟨_, rfl, hf, rfl, rfl, rfl, rfl, rfl⟩⟩,
      fun h => absurd hm h⟩
  · simp only [hi]
    exact ⟨fun h => absurd h hm, fun _ => by simp⟩

private theorem validT_iff (t : Nat) (pubs : List G) :
    VssP.validT t pubs = true ↔ 2 ≤ t ∧ t ≤ pubs.length ∧ t < 2 ^ 32 := by
  simp only [VssP.validT, Bool.and_eq_true, decide_eq_true_eq, and_assoc]
  constructor
  · rintro ⟨h1, h2, h3⟩; exact ⟨h1, h2, by omega⟩
  · rintro ⟨h1, h2, h3⟩; exact ⟨h1, h2, Nat.mod_eq_of_lt (by omega)⟩

/-- C122: `new_dealer` of both variants: the threshold must be at least 2 and at most the number of verifiers
(and fit into 32 bits), otherwise an error. The dealer then holds one deal for each verifier. -/
theorem C122_new_dealer (E : VssR.Env F G) (S : Suite F G) (x secret : F) (pubs : List G) (t : Nat)
    (draws fD gD : List F) (hd : t - 1 ≤ draws.length) (hf : t - 1 ≤ fD.length) (hg : t ≤ gD.length) :
    (2 ≤ t ∧ t ≤ pubs.length ∧ t < 2 ^ 32 →
      (∃ d, VssP.newDealer S x secret pubs t draws = .ok d ∧ d.secret = secret ∧ d.verifiers = pubs ∧ d.t = t ∧
        d.deals.length = pubs.length) ∧
      ∃ d, VssR.newDealer E x secret pubs t fD gD = .ok d ∧ d.secret = secret ∧ d.verifiers = pubs ∧ d.t = t ∧
        d.deals.length = pubs.length) ∧
    (¬ (2 ≤ t ∧ t ≤ pubs.length ∧ t < 2 ^ 32) →
      VssP.newDealer S x secret pubs t draws = .err .invalidThreshold ∧
      VssR.newDealer E x secret pubs t fD gD = .err .invalidThreshold) := by
  rw [← validT_iff]
  constructor
  · intro hv
    constructor
    · obtain ⟨d, h⟩ : ∃ d, VssP.newDealer S x secret pubs t draws = .ok d := by
        unfold VssP.newDealer
        rw [if_neg (by simp [hv])]
        simp only [newPriPoly]
        rw [if_pos hd]
        exact ⟨_, rfl⟩
      obtain ⟨-, -, -, -, h1, h2, h3, -, -, -, -, h4, -⟩ := VssP.newDealer_ok h
      exact ⟨d, h, h1, h2, h3, by rw [h4]; simp⟩
    · obtain ⟨d, h⟩ := VssR.newDealer_some E x secret pubs t fD gD hv hf hg
      obtain ⟨_, _, -, -, -, -, -, -, -, -, h1, h2, h3, -, -, -, h4, -⟩ := VssR.newDealer_ok h
      exact ⟨d, h, h1, h2, h3, by rw [h4]; simp⟩
  · intro hv
    rw [Bool.not_eq_true] at hv
    unfold VssP.newDealer VssR.newDealer
    rw [if_pos hv, if_pos hv]
    exact ⟨rfl, rfl⟩


example := C122_new_dealer Toy.envR Toy.suite (5 : ZMod 11) 7 [3, 10, 4] 2 [1] [6] [3, 7]
  (by decide) (by decide) (by decide)

example := C122_new_dealer Toy.envR Toy.suite (5 : ZMod 11) 7 [3, 10, 4] 4 [1, 2, 3] [6, 1, 2] [3, 7, 1, 2]
  (by decide) (by decide) (by decide)

/-! ## Key generation and signatures -/

/-- C122: `new_dist_key_generator` of the Rabin variant: the own key is looked for first, then the threshold
is checked. -/
theorem C122_new_generator_rabin (E : VssR.Env F G) (x secret : F) (pubs : List G) (t : Nat)
    (fD gD : List F) (hf : t - 1 ≤ fD.length) (hg : t ≤ gD.length) :
    (x • E.suite.base ∈ pubs ∧ (2 ≤ t ∧ t ≤ pubs.length ∧ t < 2 ^ 32) →
      ∃ d, DkgR.newDistKeyGenerator E x pubs t secret fD gD = .ok d ∧
        FirstAt pubs (x • E.suite.base) d.index ∧ d.participants = pubs ∧ d.t = t ∧ d.verifiers = [] ∧
        d.dealer.secret = secret) ∧
    (x • E.suite.base ∉ pubs →
      DkgR.newDistKeyGenerator E x pubs t secret fD gD = .err .missingOwnPublicKey) ∧
    (x • E.suite.base ∈ pubs ∧ ¬ (2 ≤ t ∧ t ≤ pubs.length ∧ t < 2 ^ 32) →
      DkgR.newDistKeyGenerator E x pubs t secret fD gD = .err (.vss .invalidThreshold)) := by
  have hdl := C122_new_dealer E E.suite x secret pubs t fD fD gD hf hf hg
  unfold DkgR.newDistKeyGenerator
  rcases find_cases pubs (x • E.suite.base) with ⟨hm, i, hi, hfi⟩ | ⟨hm, hi⟩
  · simp only [hi]
    refine ⟨fun h => ?_, fun h => absurd hm h, fun h => ?_⟩
    · obtain ⟨-, d, h1, h2, -⟩ := hdl.1 h.2
      rw [h1]
      exact ⟨_, rfl, hfi, rfl, rfl, rfl, h2⟩
    · rw [(hdl.2 h.2).2]; rfl
  · simp only [hi]
    exact ⟨fun h => absurd h.1 hm, fun _ => by simp, fun h => absurd h.1 hm⟩


example := C122_new_generator_rabin Toy.envR (5 : ZMod 11) 1 [6, 10, 4] 2 [6] [3, 7] (by decide) (by decide)

example := C122_new_generator_rabin Toy.envR (5 : ZMod 11) 1 [6, 4] 2 [6] [3, 7] (by decide) (by decide)

/-- C122: `new_dss`: the own key must be among the participants. No other parameter is checked, in
particular not the threshold and not that the two shares belong to the same holder (C17). -/
theorem C122_new_dss (S : Suite F G) (x : F) (pubs : List G) (long random : Dss.DistKeyShare F G) (msg : Bytes)
    (t : Nat) :
    (x • S.base ∈ pubs → ∃ d, Dss.newDss S x pubs long random msg t = .ok d ∧ FirstAt pubs (x • S.base) d.index ∧
      d.participants = pubs ∧ d.long = long ∧ d.random = random ∧ d.msg = msg ∧ d.t = t ∧ d.partials = [] ∧
      d.signed = false) ∧
    (x • S.base ∉ pubs → Dss.newDss S x pubs long random msg t = .err .publicKeyNotInParticipants) := by
  unfold Dss.newDss
  rcases find_cases pubs (x • S.base) with ⟨hm, i, hi, hf⟩ | ⟨hm, hi⟩
  · simp only [hi]
    exact ⟨fun _ => ⟨_, rfl, hf, rfl, rfl, rfl, rfl, rfl, rfl, rfl⟩, fun h => absurd hm h⟩
  · simp only [hi]
    exact ⟨fun h => absurd h hm, fun _ => by simp⟩

/-- The threshold that a configuration stands for. -/
def effectiveT (c : DkgP.Config F G) : Nat :=
  if c.threshold ≠ 0 then c.threshold else (c.newNodes.length + 1) / 2

/-- The configuration makes the node deal: it holds an old share, or takes part in a fresh generation. -/
def Deals (S : Suite F G) (c : DkgP.Config F G) : Prop :=
  c.share.isSome = true ∨ c.publicCoeffs = none ∧ c.longterm • S.base ∈ c.newNodes

private theorem find_snd (l : List G) (p : G) : (DkgP.findPub l p).2 = true ↔ p ∈ l := by
  unfold DkgP.findPub
  rcases find_cases l p with ⟨hm, i, hi, -⟩ | ⟨hm, hi⟩
  · simp [hi, hm]
  · simp [hi, hm]

private theorem init_no_panic (S : Suite F G) (c : DkgP.Config F G) : DkgP.initVerifiers S c ≠ .panic := by
  have hnv : ∀ dealer, VssP.newVerifier S c.longterm dealer c.newNodes ≠ .panic := by
    intro dealer h
    rcases find_cases c.newNodes (c.longterm • S.base) with ⟨hm, -⟩ | ⟨hm, -⟩
    · obtain ⟨v, hv, -⟩ := ((C122_new_verifier S c.longterm dealer c.newNodes).1 hm).1
      rw [h] at hv; cases hv
    · have := ((C122_new_verifier S c.longterm dealer c.newNodes).2 hm).1
      rw [h] at this; cases this
  have hfold : ∀ (l : List (G × Nat)) (acc : AMap (VssP.Verifier F G) × List G),
      l.foldlM (fun (acc : AMap (VssP.Verifier F G) × List G) pi =>
        if pi.1 ∈ acc.2 then (.err .duplicatePublicKeyInNewList : Res DkgP.DkgError _)
        else do
          let ver ← (VssP.newVerifier S c.longterm pi.1 c.newNodes).mapErr .vss
          .ok (acc.1.insert pi.2 { ver with aggregator := ver.aggregator.setThreshold c.threshold },
            pi.1 :: acc.2)) acc ≠ .panic := by
    intro l
    induction l with
    | nil => intro acc h; cases h
    | cons a l ih =>
      intro acc
      rw [List.foldlM_cons]
      by_cases hm : a.1 ∈ acc.2
      · rw [if_pos hm]; intro h; cases h
      · rw [if_neg hm]
        cases hv : VssP.newVerifier S c.longterm a.1 c.newNodes with
        | ok v => exact ih _
        | err e => intro h; cases h
        | panic => exact absurd hv (hnv _)
  unfold DkgP.initVerifiers
  intro h
  cases hr : (c.oldNodes.zipIdx.foldlM (fun (acc : AMap (VssP.Verifier F G) × List G) pi =>
        if pi.1 ∈ acc.2 then (.err .duplicatePublicKeyInNewList : Res DkgP.DkgError _)
        else do
          let ver ← (VssP.newVerifier S c.longterm pi.1 c.newNodes).mapErr .vss
          .ok (acc.1.insert pi.2 { ver with aggregator := ver.aggregator.setThreshold c.threshold },
            pi.1 :: acc.2)) ([], [])) with
  | ok v => rw [hr] at h; cases h
  | err e => rw [hr] at h; cases h
  | panic => exact hfold _ _ hr

/-- C122: `new_dist_key_handler`: exactly which configurations are accepted, and the error otherwise. A threshold
out of range is noticed only by nodes that deal; nothing else is checked, in particular not that
a node with an old share is an old node, and duplicated keys are not refused (C38). -/
theorem C122_new_handler (S : Suite F G) (c : DkgP.Config F G) (secret : F) (draws : List F)
    (hd : effectiveT c - 1 ≤ draws.length) :
    let re : Prop := c.share.isSome = true ∨ c.publicCoeffs.isSome = true
    let pubb := c.longterm • S.base
    let T := effectiveT c
    let r := DkgP.newDistKeyHandler S c secret draws
    r ≠ .panic ∧
    (r = .err .emptyNodeList ↔ c.newNodes = [] ∧ c.oldNodes = []) ∧
    (r = .err .reshareMissingOldNodes ↔ c.newNodes ≠ [] ∧ c.oldNodes = [] ∧ re) ∧
    (r = .err .reshareMissingOldThreshold ↔ c.oldNodes ≠ [] ∧ re ∧ c.oldThreshold = 0) ∧
    (r = .err .publicKeyNotFound ↔ (c.newNodes ≠ [] ∨ c.oldNodes ≠ []) ∧
      (re → c.oldNodes ≠ [] ∧ c.oldThreshold ≠ 0) ∧ pubb ∉ c.oldNodes ∧ pubb ∉ c.newNodes) ∧
    (r = .err (.vss .invalidThreshold) ↔ (re → c.oldNodes ≠ [] ∧ c.oldThreshold ≠ 0) ∧
      (pubb ∈ c.oldNodes ∨ pubb ∈ c.newNodes) ∧ Deals S c ∧ ¬ (2 ≤ T ∧ T ≤ c.newNodes.length ∧ T < 2 ^ 32)) ∧
    ((∃ d, r = .ok d) ↔ (re → c.oldNodes ≠ [] ∧ c.oldThreshold ≠ 0) ∧
      (pubb ∈ c.oldNodes ∨ pubb ∈ c.newNodes) ∧
      (Deals S c → 2 ≤ T ∧ T ≤ c.newNodes.length ∧ T < 2 ^ 32)) := by
  intro re pubb T r
  have hT : (if c.threshold ≠ 0 then c.threshold else VssP.minimumT c.newNodes.length) = T := rfl
  have hdl : ∀ s, ((2 ≤ T ∧ T ≤ c.newNodes.length ∧ T < 2 ^ 32) ∧
        ∃ d, VssP.newDealer S c.longterm s c.newNodes T draws = .ok d) ∨
      (¬ (2 ≤ T ∧ T ≤ c.newNodes.length ∧ T < 2 ^ 32) ∧
        VssP.newDealer S c.longterm s c.newNodes T draws = .err .invalidThreshold) := by
    intro s
    by_cases hv : 2 ≤ T ∧ T ≤ c.newNodes.length ∧ T < 2 ^ 32
    · left
      refine ⟨hv, ?_⟩
      unfold VssP.newDealer
      rw [if_neg (by simp [(validT_iff T c.newNodes).2 hv])]
      simp only [newPriPoly]
      rw [if_pos hd]
      exact ⟨_, rfl⟩
    · right
      refine ⟨hv, ?_⟩
      unfold VssP.newDealer
      rw [if_pos (by rw [← Bool.not_eq_true, validT_iff]; exact hv)]
  have hre : (c.share.isSome || c.publicCoeffs.isSome) = true ↔ re := by
    simp only [Bool.or_eq_true, re]
  have hno := find_snd c.oldNodes pubb
  have hnn := find_snd c.newNodes pubb
  have hmemo : pubb ∈ c.oldNodes → c.oldNodes ≠ [] := List.ne_nil_of_mem
  have hmemn : pubb ∈ c.newNodes → c.newNodes ≠ [] := List.ne_nil_of_mem
  -- what happens after the checks
  have hend : ∀ (d : VssP.Dealer F G) (b : Bool) (o : List G), ∃ k,
      (match (DkgP.findPub c.newNodes pubb).2,
          DkgP.initVerifiers S (DkgP.prepare S c (c.share.isSome || c.publicCoeffs.isSome)
            (DkgP.findPub c.newNodes pubb) d b o T).c with
        | true, .ok vs => (.ok { DkgP.prepare S c (c.share.isSome || c.publicCoeffs.isSome)
            (DkgP.findPub c.newNodes pubb) d b o T with verifiers := vs } : Res DkgP.DkgError (DkgP.Dkg F G))
        | true, .panic => .panic
        | _, _ => .ok (DkgP.prepare S c (c.share.isSome || c.publicCoeffs.isSome)
            (DkgP.findPub c.newNodes pubb) d b o T)) = .ok k := by
    intro d b o
    have hp := init_no_panic S (DkgP.prepare S c (c.share.isSome || c.publicCoeffs.isSome)
            (DkgP.findPub c.newNodes pubb) d b o T).c
    split
    · exact ⟨_, rfl⟩
    · rename_i h; exact absurd h hp
    · exact ⟨_, rfl⟩
  -- the value in each case
  have hr : (c.newNodes = [] ∧ c.oldNodes = [] ∧ r = .err .emptyNodeList) ∨
      (c.newNodes ≠ [] ∧ c.oldNodes = [] ∧ re ∧ r = .err .reshareMissingOldNodes) ∨
      (c.oldNodes ≠ [] ∧ re ∧ c.oldThreshold = 0 ∧ r = .err .reshareMissingOldThreshold) ∨
      ((c.newNodes ≠ [] ∨ c.oldNodes ≠ []) ∧ (re → c.oldNodes ≠ [] ∧ c.oldThreshold ≠ 0) ∧ pubb ∉ c.oldNodes ∧
        pubb ∉ c.newNodes ∧ r = .err .publicKeyNotFound) ∨
      ((re → c.oldNodes ≠ [] ∧ c.oldThreshold ≠ 0) ∧ (pubb ∈ c.oldNodes ∨ pubb ∈ c.newNodes) ∧ Deals S c ∧
        ¬ (2 ≤ T ∧ T ≤ c.newNodes.length ∧ T < 2 ^ 32) ∧ r = .err (.vss .invalidThreshold)) ∨
      ((re → c.oldNodes ≠ [] ∧ c.oldThreshold ≠ 0) ∧ (pubb ∈ c.oldNodes ∨ pubb ∈ c.newNodes) ∧
        (Deals S c → 2 ≤ T ∧ T ≤ c.newNodes.length ∧ T < 2 ^ 32) ∧ ∃ k, r = .ok k) := by
    simp only [r]
    unfold DkgP.newDistKeyHandler
    by_cases h1 : c.newNodes = [] ∧ c.oldNodes = []
    · rw [if_pos h1]; exact Or.inl ⟨h1.1, h1.2, rfl⟩
    rw [if_neg h1]
    simp only
    rw [hT]
    by_cases h2 : re ∧ c.oldNodes = []
    · rw [if_pos ⟨hre.2 h2.1, h2.2⟩]
      exact Or.inr (Or.inl ⟨fun h => h1 ⟨h, h2.2⟩, h2.2, h2.1, rfl⟩)
    rw [if_neg (fun h => h2 ⟨hre.1 h.1, h.2⟩)]
    by_cases h3 : re ∧ c.oldThreshold = 0
    · rw [if_pos ⟨hre.2 h3.1, h3.2⟩]
      exact Or.inr (Or.inr (Or.inl ⟨fun h => h2 ⟨h3.1, h⟩, h3.1, h3.2, rfl⟩))
    rw [if_neg (fun h => h3 ⟨hre.1 h.1, h.2⟩)]
    have hre' : re → c.oldNodes ≠ [] ∧ c.oldThreshold ≠ 0 := fun h => ⟨fun h' => h2 ⟨h, h'⟩, fun h' => h3 ⟨h, h'⟩⟩
    by_cases h4 : pubb ∉ c.oldNodes ∧ pubb ∉ c.newNodes
    · rw [if_pos ⟨by rw [← Bool.not_eq_true, hno]; exact h4.1, by rw [← Bool.not_eq_true, hnn]; exact h4.2⟩]
      refine Or.inr (Or.inr (Or.inr (Or.inl ⟨?_, hre', h4.1, h4.2, rfl⟩)))
      by_contra hc
      push Not at hc
      exact h1 ⟨hc.1, hc.2⟩
    rw [if_neg (fun h => h4 ⟨by rw [← hno]; simp [pubb, h.1], by rw [← hnn]; simp [pubb, h.2]⟩)]
    have h4' : pubb ∈ c.oldNodes ∨ pubb ∈ c.newNodes := by
      by_contra hc
      exact h4 (not_or.1 hc)
    refine Or.inr (Or.inr (Or.inr (Or.inr ?_)))
    cases hs : c.share with
    | some sh =>
      have hD : Deals S c := Or.inl (by rw [hs]; rfl)
      simp only
      rcases hdl sh.share.v with ⟨hv, d, h⟩ | ⟨hv, h⟩
      · rw [h]
        refine Or.inr ⟨hre', h4', fun _ => hv, ?_⟩
        rw [hs] at hend
        exact hend d true c.oldNodes
      · rw [h]
        exact Or.inl ⟨hre', h4', hD, hv, rfl⟩
    | none =>
      simp only
      by_cases hn : c.publicCoeffs = none ∧ pubb ∈ c.newNodes
      · have hD : Deals S c := Or.inr hn
        rw [if_pos ⟨by simp [hn.1], hnn.2 hn.2⟩]
        rcases hdl secret with ⟨hv, d, h⟩ | ⟨hv, h⟩
        · rw [h]
          refine Or.inr ⟨hre', h4', fun _ => hv, ?_⟩
          rw [hs] at hend
          exact hend d true c.newNodes
        · rw [h]
          exact Or.inl ⟨hre', h4', hD, hv, rfl⟩
      · rw [if_neg (fun h => hn ⟨by simpa using h.1, hnn.1 h.2⟩)]
        refine Or.inr ⟨hre', h4', fun hD => ?_, ?_⟩
        · rcases hD with h | h
          · rw [hs] at h; cases h
          · exact absurd h hn
        · rw [hs] at hend
          exact hend DkgP.defaultDealer false c.oldNodes
  simp only [ne_eq] at hr hmemo hmemn ⊢
  generalize Deals S c = D at hr ⊢
  generalize (2 ≤ T ∧ T ≤ c.newNodes.length ∧ T < 2 ^ 32) = V at hr ⊢
  clear hend hdl hno hnn hre hT hd
  generalize (pubb ∈ c.oldNodes) = mo at *
  generalize (pubb ∈ c.newNodes) = mn at *
  generalize (c.oldNodes = []) = eo at *
  generalize (c.newNodes = []) = en at *
  generalize (c.oldThreshold = 0) = et at *
  clear_value r re
  rcases hr with ⟨h1, h2, rfl⟩ | ⟨h1, h2, h3, rfl⟩ | ⟨h1, h2, h3, rfl⟩ | ⟨h1, h2, h3, h4, rfl⟩ |
    ⟨h1, h2, h3, h4, rfl⟩ | ⟨h1, h2, h3, k, rfl⟩ <;>
    simp only [ne_eq, reduceCtorEq, not_false_eq_true, true_and, Res.err.injEq, Res.ok.injEq,
      exists_eq', exists_false, false_iff, true_iff] <;>
    clear_value pubb T <;> clear secret draws <;>
    by_cases a1 : eo <;> by_cases a2 : en <;> by_cases a3 : re <;> simp_all <;> tauto


example := C122_new_handler Toy.suite ⟨5, [10, 1], none, [1, 2, 3], some ⟨[4, 5], ⟨0, 3⟩, []⟩, 2, 2⟩
  (7 : ZMod 11) [1, 2, 3] (by decide)

example := C122_new_handler Toy.suite ⟨5, [], none, [1, 10, 3], none, 4, 0⟩ (7 : ZMod 11) [1, 2, 3] (by decide)

/-- C122: an unspecified threshold stands for half of the participants, rounded up. In groups of one or two this
is 1, which is refused: there the threshold must be given, and a group of one is never accepted. -/
theorem C122_default_threshold (S : Suite F G) (x secret : F) (pubs : List G) (t : Nat) (draws : List F)
    (hm : x • S.base ∈ pubs) (hn : pubs.length < 2 ^ 32) (hd : pubs.length ≤ draws.length) (ht : t ≤ draws.length) :
    (DkgP.newDistKeyGenerator S x pubs 0 secret draws = .err (.vss .invalidThreshold) ↔ pubs.length ≤ 2) ∧
    ((∃ d, DkgP.newDistKeyGenerator S x pubs 0 secret draws = .ok d) ↔ 3 ≤ pubs.length) ∧
    (pubs.length = 1 → DkgP.newDistKeyGenerator S x pubs t secret draws = .err (.vss .invalidThreshold)) := by
  have key := fun (t : Nat) (h) => C122_new_handler S (⟨x, [], none, pubs, none, t, 0⟩ : DkgP.Config F G) secret draws h
  have h0 := key 0 (by simp only [effectiveT, ne_eq, not_true_eq_false, if_false]; omega)
  have h1 := key t (by simp only [effectiveT]; split <;> simp <;> omega)
  obtain ⟨-, -, -, -, -, ha, hb⟩ := h0
  obtain ⟨-, -, -, -, -, hc, -⟩ := h1
  have hD : ∀ t, Deals S (⟨x, [], none, pubs, none, t, 0⟩ : DkgP.Config F G) := fun t => Or.inr ⟨rfl, hm⟩
  refine ⟨ha.trans ?_, hb.trans ?_, fun h => hc.2 ?_⟩
  · simp only [Option.isSome_none, Bool.false_eq_true, or_self, false_implies, true_and, hm, or_true, hD, effectiveT,
      ne_eq, not_true_eq_false, if_false]
    omega
  · simp only [Option.isSome_none, Bool.false_eq_true, or_self, false_implies, true_and, hm, or_true, hD, effectiveT,
      ne_eq, not_true_eq_false, if_false, forall_const]
    omega
  · simp only [Option.isSome_none, Bool.false_eq_true, or_self, false_implies, true_and, hm, or_true, hD, effectiveT, h]
    split <;> omega

namespace SetupExample

/-- A key listed twice: the first place counts. -/
example : FirstAt [(3 : ZMod 11), 10, 10] 10 1 ∧
    ∃ v, VssP.newVerifier Toy.suite 5 3 [3, 10, 10] = .ok v ∧ v.index = 1 := by
  refine ⟨⟨rfl, ?_⟩, _, rfl, rfl⟩
  intro j hj
  have : j = 0 := by omega
  subst this; decide

/-- A node outside both groups, a threshold that is too large, a resharing without the old
threshold, an old node that leaves, a node that joins. -/
example :
    DkgP.newDistKeyHandler Toy.suite ⟨5, [], none, [1, 2, 3], none, 2, 0⟩ (7 : ZMod 11) [1, 2, 3] =
      .err .publicKeyNotFound ∧
    DkgP.newDistKeyHandler Toy.suite ⟨5, [], none, [1, 10, 3], none, 4, 0⟩ (7 : ZMod 11) [1, 2, 3] =
      .err (.vss .invalidThreshold) ∧
    DkgP.newDistKeyHandler Toy.suite ⟨5, [10, 1], some [4, 5], [1, 10, 3], none, 2, 0⟩ (7 : ZMod 11) [1, 2, 3] =
      .err .reshareMissingOldThreshold := ⟨rfl, rfl, rfl⟩

example : (∃ d, DkgP.newDistKeyHandler Toy.suite ⟨5, [10, 1], none, [1, 2, 3], some ⟨[4, 5], ⟨0, 3⟩, []⟩, 2, 2⟩
      (7 : ZMod 11) [1, 2, 3] = .ok d) ∧
    ∃ d, DkgP.newDistKeyHandler Toy.suite ⟨5, [2, 1], some [4, 5], [1, 10, 3], none, 2, 2⟩ (7 : ZMod 11) [1, 2, 3] =
      .ok d := ⟨⟨_, rfl⟩, ⟨_, rfl⟩⟩

end SetupExample

end Kyber.Props
