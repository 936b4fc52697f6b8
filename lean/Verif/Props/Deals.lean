/-
Property C119: the deals handed out by `deals` of both distributed key generations, and what
`expected_deals` counts.
-/
import Verif.Lemmas.DkgRobust
import Verif.Lemmas.DkgRabin
import Verif.Props.DkgPedersenReshare
import Verif.Spec.ToyDkg
import Verif.Spec.ToyDkgR
import Verif.Spec.Ok

set_option linter.unusedSectionVars false

namespace Kyber.Props

open Kyber Kyber.Poly Kyber.Spec Kyber.VssP

variable {F G : Type} [Field F] [AddCommGroup G] [SMul F G] [DecidableEq G]

namespace P

open Kyber.DkgP

/-- Participant `i` of the new group is the dealer itself, in a run that is not a resharing. -/
def Own (d : Dkg F G) (i : Nat) : Prop := i = d.nidx ∧ d.newPresent = true ∧ d.isResharing = false

instance (d : Dkg F G) (i : Nat) : Decidable (Own d i) := by unfold Own; infer_instance

theorem dealsLoop_out (E : DkgEnv F G) (encs : List (EncryptedDeal G)) (rnd : Nat → F) (vk vk' : F)
    (l : List Nat) (d : Dkg F G) (dd out : AMap (Deal G))
    (h : (Dkg.dealsLoop E encs rnd vk vk' l d dd).2 = .ok out) :
    (dd.keys.Nodup → out.keys.Nodup) ∧ (∀ i ∈ l, (encs[i]?).isSome) ∧
    ∀ i, out.get i = if i ∈ l ∧ ¬ Own d i then (encs[i]?).map (fun e => d.signDeal E e (rnd i))
      else dd.get i := by
  induction l generalizing d dd with
  | nil =>
    rw [Dkg.dealsLoop] at h
    cases h
    exact ⟨id, by simp, by simp⟩
  | cons a l ih =>
    rw [Dkg.dealsLoop] at h
    split at h
    · cases h
    rename_i e he
    simp only at h
    have hskip : ∀ d' : Dkg F G, Evolves E d d' → Own d a →
        (Dkg.dealsLoop E encs rnd vk vk' l d' dd).2 = .ok out → _ := fun d' hev ho h' => by
      obtain ⟨h1, h2, h3⟩ := ih d' dd h'
      have hown : ∀ i, Own d' i ↔ Own d i := by
        intro i; unfold Own; rw [hev.nidx, hev.newPresent, hev.isResharing]
      have hsign : ∀ e r, d'.signDeal E e r = d.signDeal E e r := by
        intro e r; unfold Dkg.signDeal; rw [hev.oidx, hev.c]
      exact show (dd.keys.Nodup → out.keys.Nodup) ∧ (∀ i ∈ a :: l, (encs[i]?).isSome) ∧
          ∀ i, out.get i = if i ∈ a :: l ∧ ¬ Own d i then (encs[i]?).map (fun e => d.signDeal E e (rnd i))
            else dd.get i from ⟨h1, by
              intro i hi
              rcases List.mem_cons.1 hi with rfl | hi
              · rw [he]; rfl
              · exact h2 i hi, by
              intro i
              rw [h3 i]
              simp only [hown, hsign]
              by_cases hi : i = a
              · subst hi; simp [ho]
              · simp [hi]⟩
    split at h
    · rename_i ho
      split at h
      · exact hskip d (Evolves.refl E d) ho h
      · have hev := (processed_evolves E d true).trans (processDeal_evolves E
          { d with processed := true } (d.signDeal E e (rnd a)) vk vk')
        split at h
        · rename_i d' r hd'
          rw [hd'] at hev
          split at h
          · cases h
          · exact hskip d' hev ho h
        · cases h
        · cases h
    · rename_i ho
      obtain ⟨h1, h2, h3⟩ := ih d _ h
      refine ⟨fun hn => h1 (AMap.nodup_insert hn _ _), ?_, ?_⟩
      · intro i hi
        rcases List.mem_cons.1 hi with rfl | hi
        · rw [he]; rfl
        · exact h2 i hi
      · intro i
        rw [h3 i, AMap.get_insert]
        by_cases hi : i = a
        · subst hi
          have : ¬ Own d i := ho
          simp [this, he]
        · simp [hi]

end P

open Kyber.DkgP in
/-- C119: whatever happened before, if `deals` of the Pedersen generator succeeds it returns at most
one deal for each participant of the new group, and one for each of them except, outside
resharing, the dealer itself. The deal for `i` is the encryption of deal number `i` to the
key of `i`, under the dealer's index and its signature. -/
theorem C119_deals (E : DkgEnv F G) (c : Config F G) (secret : F) (draws : List F) (d0 : Dkg F G)
    (h0 : newDistKeyHandler E.suite c secret draws = .ok d0) (cs : List (DCall F G))
    (dh k rnd : Nat → F) (vk vk' : F) (out : AMap (Deal G))
    (h : ((dRun E d0 cs).deals E dh k rnd vk vk').2 = .ok out) :
    out.keys.Nodup ∧
    (∀ i, i ∈ out.keys ↔ d0.canIssue = true ∧ i < c.newNodes.length ∧
      ¬ (i = d0.nidx ∧ d0.newPresent = true ∧ d0.isResharing = false)) ∧
    ∀ i dd, out.get i = some dd → dd.index = d0.oidx ∧
      d0.dealer.encryptedDeal E.toEnv i (dh i) (k i) = .ok dd.deal ∧
      (E.suite.Lawful → Usable E.suite (rnd i • E.suite.base) →
        Usable E.suite (c.longterm • E.suite.base) →
        Schnorr.verify E.suite (c.longterm • E.suite.base) (E.encDist d0.oidx dd.deal) dd.signature = .ok ()) := by
  have hst := newDistKeyHandler_ok h0
  have hev := dRun_evolves E d0 cs
  set d := dRun E d0 cs
  have henc : ∀ i, d.dealer.encryptedDeal E.toEnv i (dh i) (k i) =
      d0.dealer.encryptedDeal E.toEnv i (dh i) (k i) := by
    intro i
    rw [← hev.dealer]; rfl
  unfold Dkg.deals at h
  split at h
  · rename_i hc
    cases h
    rw [hev.canIssue] at hc
    refine ⟨by simp [AMap.keys], by simp [AMap.keys, hc], by simp⟩
  rename_i hc
  rw [hev.canIssue, Bool.not_eq_false] at hc
  split at h
  · cases h
  · cases h
  rename_i encs hencs
  obtain ⟨h1, h2, h3⟩ := P.dealsLoop_out E encs rnd vk vk' _ d [] out h
  have hown : ∀ i, P.Own d i ↔ i = d0.nidx ∧ d0.newPresent = true ∧ d0.isResharing = false := by
    intro i; unfold P.Own; rw [hev.nidx, hev.newPresent, hev.isResharing]
  have hlen : d.c.newNodes = c.newNodes := by rw [hev.c, hst.newNodes]
  rw [hlen] at h2 h3
  simp only [List.mem_range, hown] at h2 h3
  refine ⟨h1 (by simp [AMap.keys]), ?_, ?_⟩
  · intro i
    rw [← AMap.get_isSome, h3 i]
    by_cases hi : i < c.newNodes.length ∧ ¬ (i = d0.nidx ∧ d0.newPresent = true ∧ d0.isResharing = false)
    · rw [if_pos hi, Option.isSome_map]
      simp only [h2 i hi.1, hc, true_and, true_iff]
      exact hi
    · rw [if_neg hi]
      simp only [AMap.get_nil, Option.isSome_none, Bool.false_eq_true, false_iff]
      rintro ⟨-, h⟩; exact hi h
  · intro i dd hdd
    rw [h3 i] at hdd
    split at hdd
    · obtain ⟨e, he, rfl⟩ := Option.map_eq_some_iff.1 hdd
      obtain ⟨j, hj, hej⟩ := mapM_getElem? _ _ _ hencs i e he
      obtain ⟨hjl, hji⟩ := List.getElem?_eq_some_iff.1 hj
      rw [List.getElem_range] at hji
      subst hji
      refine ⟨hev.oidx, by rw [← henc]; exact hej, ?_⟩
      intro hS hu hp
      unfold Dkg.signDeal
      simp only [hev.oidx, hev.c, hst.longterm]
      exact C11_sign_verify E.suite hS (rnd i) c.longterm _ hu.1 hu.2 hp.1 hp.2
    · simp at hdd

namespace P

open Kyber.DkgP

theorem issuer_dealer {S : Suite F G} {c : Config F G} {secret : F} {draws : List F} {d : Dkg F G}
    (h : newDistKeyHandler S c secret draws = .ok d) (hi : d.canIssue = true) :
    ∃ s, newDealer S c.longterm s c.newNodes d.newT draws = .ok d.dealer := by
  have hst := newDistKeyHandler_ok h
  cases hs : c.share with
  | some sh => exact ⟨_, hst.issue sh hs⟩
  | none =>
    by_cases hre : d.isResharing = true
    · have := (hst.reshare hre).2.2.2
      rw [hs, hi] at this; cases this
    · rw [Bool.not_eq_true] at hre
      by_cases hn : d.newPresent = true
      · exact ⟨_, (hst.fresh hre hn).2.2⟩
      · exfalso
        have hn2 : (findPub c.newNodes (c.longterm • S.base)).2 = false := by
          rw [hst.nidx]; simpa using hn
        unfold newDistKeyHandler at h
        rw [Res.ite_err_eq_ok] at h
        simp only [hs, hn2] at h
        rw [Res.ite_err_eq_ok, Res.ite_err_eq_ok, Res.ite_err_eq_ok] at h
        obtain ⟨-, -, -, -, h⟩ := h
        simp only [Bool.false_eq_true, and_false, if_false, Res.bind_ok] at h
        cases h
        simp [prepare] at hi

end P

open Kyber.DkgP in
/-- C119: the participant with the key at position `i` of the new group opens the deal for `i` to
the dealer's `plaintext_deal(i)`. -/
theorem C119_opens (E : DkgEnv F G) (hS : E.suite.Lawful) (hP : E.prims.Lawful)
    (c : Config F G) (hnd : c.newNodes.Nodup) (secret : F) (draws : List F) (d0 : Dkg F G)
    (hC : ∀ dl ∈ d0.dealer.deals, E.codec.dec (E.codec.enc dl) = some dl)
    (h0 : newDistKeyHandler E.suite c secret draws = .ok d0) (cs : List (DCall F G))
    (dh k rnd : Nat → F) (vk vk' : F) (out : AMap (Deal G))
    (h : ((dRun E d0 cs).deals E dh k rnd vk vk').2 = .ok out)
    (i : Nat) (dd : Deal G) (hdd : out.get i = some dd)
    (hk : Usable E.suite (k i • E.suite.base)) (hx : Usable E.suite (c.longterm • E.suite.base))
    (y : F) (hy : c.newNodes[i]? = some (y • E.suite.base)) :
    ∃ v q, newVerifier E.suite y (c.longterm • E.suite.base) c.newNodes = .ok v ∧
      d0.dealer.plaintextDeal i = .ok q ∧ v.decryptDeal E.toEnv dd.deal = .ok q := by
  obtain ⟨-, h2, h3⟩ := C119_deals E c secret draws d0 h0 cs dh k rnd vk vk' out h
  obtain ⟨-, he, -⟩ := h3 i dd hdd
  have hi := ((h2 i).1 (AMap.get_isSome.1 (by rw [hdd]; rfl))).1
  obtain ⟨s, hs⟩ := P.issuer_dealer h0 hi
  obtain ⟨-, -, d1, -, -, d4, -, -, -, -, d9, -⟩ := newDealer_ok hs
  have := decrypt_encrypted (E := E.toEnv) hS hP hC (i := i) (dh := dh i) (k := k i)
    (e := dd.deal) (d := d0.dealer)
    (v := { longterm := y, pubb := y • E.suite.base, dealer := c.longterm • E.suite.base, index := i,
            verifiers := c.newNodes, hkdfContext := context E.suite (c.longterm • E.suite.base) c.newNodes,
            aggregator := newEmptyAggregator c.newNodes })
    (by rw [d4]; exact hy) (by rw [d1]) (by rw [d9]) (by rw [d1]; exact hx) hk he
  obtain ⟨q, hq, hv⟩ := this
  refine ⟨_, q, newVerifier_ok E.suite y _ c.newNodes i hnd hy, ?_, hv⟩
  unfold VssP.Dealer.plaintextDeal
  rw [hq]; rfl

open Kyber.DkgP in
/-- C119: `expected_deals` counts the deals that the others make for this participant: if `d0` is
this participant's generator, `dj 0, dj 1, ...` are those of the dealers (the old group in a resharing,
all participants otherwise) and `out j` is what dealer `j` handed out, whenever that was, then the
number of dealers other than this participant with a deal for it is `expected_deals`, in every
reachable state. -/
theorem C119_expected_deals (E : DkgEnv F G) (c : Config F G) (secret : F) (draws : List F) (d0 : Dkg F G)
    (h0 : newDistKeyHandler E.suite c secret draws = .ok d0) (hnp : d0.newPresent = true)
    (hnd : d0.c.oldNodes.Nodup) (cs : List (DCall F G))
    (cj : Nat → Config F G) (sj : Nat → F) (wj : Nat → List F) (dj : Nat → Dkg F G)
    (hj : ∀ j < d0.c.oldNodes.length, newDistKeyHandler E.suite (cj j) (sj j) (wj j) = .ok (dj j) ∧
      (cj j).newNodes = c.newNodes ∧ (dj j).isResharing = d0.isResharing ∧ (dj j).canIssue = true ∧
      d0.c.oldNodes[j]? = some ((cj j).longterm • E.suite.base))
    (csj : Nat → List (DCall F G)) (dh k rnd : Nat → Nat → F) (vk vk' : Nat → F)
    (out : Nat → AMap (Deal G))
    (hout : ∀ j < d0.c.oldNodes.length,
      ((dRun E (dj j) (csj j)).deals E (dh j) (k j) (rnd j) (vk j) (vk' j)).2 = .ok (out j)) :
    (dRun E d0 cs).expectedDeals =
      ((List.range d0.c.oldNodes.length).filter (fun j => d0.c.oldNodes[j]? ≠ some (c.longterm • E.suite.base) ∧
        d0.nidx ∈ (out j).keys)).length := by
  have hst := newDistKeyHandler_ok h0
  have hev := dRun_evolves E d0 cs
  have hn : d0.nidx < c.newNodes.length := by
    have := (findPub_some (by rw [hst.nidx, hnp])).1
    exact (List.getElem?_eq_some_iff.1 this).1
  have hmem : ∀ j < d0.c.oldNodes.length, d0.c.oldNodes[j]? ≠ some (c.longterm • E.suite.base) →
      d0.nidx ∈ (out j).keys := by
    intro j hjl hne
    obtain ⟨g1, g2, g3, g4, g5⟩ := hj j hjl
    rw [(C119_deals E (cj j) (sj j) (wj j) (dj j) g1 (csj j) _ _ _ _ _ _ (hout j hjl)).2.1]
    refine ⟨g4, by rw [g2]; exact hn, ?_⟩
    rintro ⟨e1, e2, e3⟩
    have hstj := newDistKeyHandler_ok g1
    have a := (findPub_some (by rw [hstj.nidx, e2])).1
    have b := (findPub_some (by rw [hst.nidx, hnp])).1
    rw [g2, ← e1, b] at a
    rw [g5] at hne
    exact hne a.symm
  have hfil : (List.range d0.c.oldNodes.length).filter (fun j =>
      decide (d0.c.oldNodes[j]? ≠ some (c.longterm • E.suite.base) ∧ d0.nidx ∈ (out j).keys)) =
      (List.range d0.c.oldNodes.length).filter (fun j =>
        decide (d0.c.oldNodes[j]? ≠ some (c.longterm • E.suite.base))) := by
    apply List.filter_congr
    intro j hjl
    rw [decide_eq_decide]
    exact ⟨fun h => h.1, fun h => ⟨h, hmem j (List.mem_range.1 hjl) h⟩⟩
  rw [hfil]
  unfold Dkg.expectedDeals
  rw [hev.newPresent, if_pos hnp, hev.oldPresent, hev.c]
  by_cases ho : d0.oldPresent = true
  · rw [if_pos ho]
    have b := (findPub_some (by rw [hst.oidx, ho])).1
    obtain ⟨hbl, hbe⟩ := List.getElem?_eq_some_iff.1 b
    have : (List.range d0.c.oldNodes.length).filter (fun j =>
        decide (d0.c.oldNodes[j]? ≠ some (c.longterm • E.suite.base))) =
        (List.range d0.c.oldNodes.length).erase d0.oidx := by
      rw [List.nodup_range.erase_eq_filter]
      apply List.filter_congr
      intro j hjl
      have hjl := List.mem_range.1 hjl
      rw [List.getElem?_eq_getElem hjl, ← hbe]
      have : d0.c.oldNodes[j] = d0.c.oldNodes[d0.oidx] ↔ j = d0.oidx := List.Nodup.getElem_inj_iff hnd
      by_cases hje : j = d0.oidx
      · have := this.2 hje
        simp [hje]
      · have h1 : ¬ d0.c.oldNodes[j] = d0.c.oldNodes[d0.oidx] := fun h => hje (this.1 h)
        simp [h1, hje]
    rw [this, List.length_erase_of_mem (List.mem_range.2 hbl), List.length_range]
  · rw [if_neg ho, List.filter_eq_self.2, List.length_range]
    intro j hjl
    simp only [decide_eq_true_eq]
    intro hjp
    rw [Bool.not_eq_true] at ho
    have := findPub_nodup hnd hjp
    rw [hst.oidx, ho] at this
    cases this

namespace R

open Kyber.DkgR

theorem dealsLoop_out (E : VssR.Env F G) (encs : List (EncryptedDeal G)) (vk : F)
    (l : List Nat) (d : Dkg F G) (dd out : AMap (Deal G))
    (h : (Dkg.dealsLoop E encs vk l d dd).2 = .ok out) :
    (dd.keys.Nodup → out.keys.Nodup) ∧ (∀ i ∈ l, (encs[i]?).isSome) ∧
    ∀ i, out.get i = if i ∈ l ∧ i ≠ d.index then (encs[i]?).map (fun e => ⟨d.index, e⟩)
      else dd.get i := by
  induction l generalizing d dd with
  | nil =>
    rw [Dkg.dealsLoop] at h
    cases h
    exact ⟨id, by simp, by simp⟩
  | cons a l ih =>
    rw [Dkg.dealsLoop] at h
    split at h
    · cases h
    rename_i e he
    have hskip : ∀ d' : Dkg F G, d'.index = d.index → a = d.index →
        (Dkg.dealsLoop E encs vk l d' dd).2 = .ok out → _ := fun d' hev ho h' => by
      obtain ⟨h1, h2, h3⟩ := ih d' dd h'
      exact show (dd.keys.Nodup → out.keys.Nodup) ∧ (∀ i ∈ a :: l, (encs[i]?).isSome) ∧
          ∀ i, out.get i = if i ∈ a :: l ∧ i ≠ d.index then (encs[i]?).map (fun e => ⟨d.index, e⟩)
            else dd.get i from ⟨h1, by
              intro i hi
              rcases List.mem_cons.1 hi with rfl | hi
              · rw [he]; rfl
              · exact h2 i hi, by
              intro i
              rw [h3 i, hev]
              by_cases hi : i = a
              · subst hi; simp [ho]
              · simp [hi]⟩
    split at h
    · rename_i ho
      split at h
      · exact hskip d rfl ho h
      · have hev := processDeal_evolves E d ⟨d.index, e⟩ vk
        split at h
        · rename_i d' r hd'
          rw [hd'] at hev
          split at h
          · cases h
          · exact hskip (approveOwn d') hev.index ho h
        · cases h
        · cases h
    · rename_i ho
      obtain ⟨h1, h2, h3⟩ := ih d _ h
      refine ⟨fun hn => h1 (AMap.nodup_insert hn _ _), ?_, ?_⟩
      · intro i hi
        rcases List.mem_cons.1 hi with rfl | hi
        · rw [he]; rfl
        · exact h2 i hi
      · intro i
        rw [h3 i, AMap.get_insert]
        by_cases hi : i = a
        · subst hi; simp [ho, he]
        · simp [hi]

end R

open Kyber.DkgR in
/-- C119, Rabin: whatever happened before, if `deals` succeeds it returns exactly one deal for each
other participant, under the dealer's index, and the addressee opens it to `plaintext_deal`. -/
theorem C119_rabin_deals (E : VssR.Env F G) (x : F) (pubs : List G) (t : Nat) (secret : F) (fD gD : List F)
    (d0 : Dkg F G) (h0 : newDistKeyGenerator E x pubs t secret fD gD = .ok d0) (cs : List (QCall F G))
    (dh k : Nat → F) (vk : F) (out : AMap (Deal G))
    (h : ((qRun E d0 cs).deals E dh k vk).2 = .ok out) :
    out.keys.Nodup ∧ (∀ i, i ∈ out.keys ↔ i < pubs.length ∧ i ≠ d0.index) ∧
    ∀ i dd, out.get i = some dd → dd.index = d0.index ∧
      d0.dealer.encryptedDeal E i (dh i) (k i) = .ok dd.deal ∧
      (E.suite.Lawful → E.prims.Lawful → (∀ dl : VssR.Deal F G, E.codec.dec (E.codec.enc dl) = some dl) →
        pubs.Nodup → Usable E.suite (k i • E.suite.base) → Usable E.suite (x • E.suite.base) →
        ∀ y, pubs[i]? = some (y • E.suite.base) →
        ∃ v q, VssR.newVerifier E.suite y (x • E.suite.base) pubs = .ok v ∧
          d0.dealer.plaintextDeal i = .ok q ∧ v.decryptDeal E dd.deal = .ok q) := by
  obtain ⟨-, hdl, -, -, hps, -⟩ := newDistKeyGenerator_ok h0
  have hev := qRun_evolves E d0 cs
  set d := qRun E d0 cs
  have henc : ∀ i, d.dealer.encryptedDeal E i (dh i) (k i) =
      d0.dealer.encryptedDeal E i (dh i) (k i) := by
    intro i
    unfold VssR.Dealer.encryptedDeal
    rw [hev.dealer.verifiers, hev.dealer.long, hev.dealer.hkdfContext, hev.dealer.deals]
  unfold Dkg.deals at h
  split at h
  · cases h
  · cases h
  rename_i encs hencs
  obtain ⟨h1, h2, h3⟩ := R.dealsLoop_out E encs vk _ d [] out h
  rw [hev.participants, hps] at h2 h3
  simp only [List.mem_range, hev.index] at h2 h3
  refine ⟨h1 (by simp [AMap.keys]), ?_, ?_⟩
  · intro i
    rw [← AMap.get_isSome, h3 i]
    by_cases hi : i < pubs.length ∧ i ≠ d0.index
    · rw [if_pos hi, Option.isSome_map]
      simp only [h2 i hi.1, true_iff]
      exact hi
    · rw [if_neg hi]
      simp only [AMap.get_nil, Option.isSome_none, Bool.false_eq_true, false_iff]
      exact hi
  · intro i dd hdd
    rw [h3 i] at hdd
    split at hdd
    · obtain ⟨e, he, rfl⟩ := Option.map_eq_some_iff.1 hdd
      obtain ⟨j, hj, hej⟩ := DkgP.mapM_getElem? _ _ _ hencs i e he
      obtain ⟨hjl, hji⟩ := List.getElem?_eq_some_iff.1 hj
      rw [List.getElem_range] at hji
      subst hji
      rw [henc] at hej
      refine ⟨rfl, hej, ?_⟩
      intro hS hP hC hnd hu hp y hy
      obtain ⟨f, g, -, -, -, -, -, -, d1, -, -, d4, -, -, d9, -⟩ := VssR.newDealer_ok hdl
      have := VssR.decrypt_encrypted (E := E) hS hP (fun dl _ => hC dl) (i := i) (dh := dh i) (k := k i)
        (e := e) (d := d0.dealer)
        (v := { longterm := y, pubb := y • E.suite.base, dealer := x • E.suite.base, index := i,
                verifiers := pubs, hkdfContext := VssP.context E.suite (x • E.suite.base) pubs,
                aggregator := none })
        (by rw [d4]; exact hy) (by rw [d1]) (by rw [d9]) (by rw [d1]; exact hp) hu hej
      obtain ⟨q, hq, hv⟩ := this
      refine ⟨_, q, VssR.newVerifier_ok E.suite y _ pubs i hnd hy, ?_, hv⟩
      unfold VssR.Dealer.plaintextDeal
      rw [hq]; rfl
    · simp at hdd

open Kyber.Toy Kyber.DkgP DkgPExample in
/-- Three participants: each gets a deal from the two others; two old nodes and one new node: both
deals, and an old node that stays gets one of its own and one from the other. -/
example : (match (((net envDI).D 1).deals envDI (fun _ => 3) (fun _ => 4) (fun _ => 5) 5 1).2 with
      | .ok m => m.keys | _ => []) = [0, 2] ∧ ((net envDI).D 1).expectedDeals = 2 ∧
    (match ((oldNode 3 0 5 6).deals envDI (fun _ => 3) (fun _ => 4) (fun _ => 5) 5 1).2 with
      | .ok m => m.keys | _ => []) = [0, 1] ∧ newNode.expectedDeals = 2 ∧
    (oldNode 3 0 5 6).expectedDeals = 0 ∧
    (let stays := getDkg (newDistKeyHandler envDI.suite
        ⟨3, [6, 10], none, [4, 6], some ⟨[2, 8], ⟨0, 5⟩, []⟩, 2, 2⟩ 0 [6])
     (match (stays.deals envDI (fun _ => 3) (fun _ => 4) (fun _ => 5) 5 1).2 with
      | .ok m => m.keys | _ => []) = [0, 1] ∧ stays.nidx = 1 ∧ stays.expectedDeals = 1) := by
  decide +kernel

open Kyber.Toy Kyber.DkgR in
/-- Rabin: participant 1 of three, whose deal for participant 2 opens to the plaintext. -/
example : (match (((netR envRI).D 1).deals envRI (fun _ => 3) (fun _ => 4) 5).2 with
      | .ok m => m.keys | _ => []) = [0, 2] ∧
    (match (((netR envRI).D 1).deals envRI (fun _ => 3) (fun _ => 4) 5).2,
        VssR.newVerifier envRI.suite 2 (5 • envRI.suite.base) [6, 10, 4] with
      | .ok m, .ok v => (m.get 2).map (fun dd => decide (v.decryptDeal envRI dd.deal =
          ((netR envRI).D 1).dealer.plaintextDeal 2))
      | _, _ => none) = some true := by
  decide +kernel

open Kyber.Toy Kyber.DkgP DkgPExample in
/-- `C119_deals`, `C119_opens`: old node 0 of a resharing, before and after a timeout. Its deal for new
node 1 is there and opens with the key 4. -/
example : ∃ out dd v q, ((dRun envDI (oldNode 3 0 5 6) [.timeout]).deals envDI (fun _ => 3) (fun _ => 4)
      (fun _ => 5) 5 1).2 = .ok out ∧ out.get 1 = some dd ∧
    newVerifier envDI.suite 4 (3 • envDI.suite.base) [4, 8] = .ok v ∧
    (oldNode 3 0 5 6).dealer.plaintextDeal 1 = .ok q ∧ v.decryptDeal envDI.toEnv dd.deal = .ok q := by
  have h0 : newDistKeyHandler envDI.suite (oldConfig 3 0 5) 0 [6] = .ok (oldNode 3 0 5 6) := rfl
  obtain ⟨out, h⟩ := Res.exists_ok (r := ((dRun envDI (oldNode 3 0 5 6) [.timeout]).deals envDI (fun _ => 3)
    (fun _ => 4) (fun _ => 5) 5 1).2) (by decide +kernel)
  have hk := ((C119_deals envDI _ 0 [6] _ h0 _ _ _ _ _ _ out h).2.1 1).2 (by decide +kernel)
  obtain ⟨dd, hdd⟩ := Option.isSome_iff_exists.1 (AMap.get_isSome.2 hk)
  obtain ⟨v, q, hv, hq, ho⟩ := C119_opens envDI envDI_lawful prims_lawful (oldConfig 3 0 5) (by decide) 0 [6] _
    (fun dl _ => codecP_lawful dl) h0 _ _ _ _ _ _ out h 1 dd hdd ⟨by decide, by decide⟩
    ⟨by decide, by decide⟩ 4 (by decide)
  exact ⟨out, dd, v, q, h, hdd, hv, hq, ho⟩

open Kyber.Toy Kyber.DkgP DkgPExample in
/-- `C119_expected_deals`: the new node waits for the deals of both old nodes. -/
example : newNode.expectedDeals = 2 := by
  have hout : ∀ j, ∃ out, ((dRun envDI (if j = 0 then oldNode 3 0 5 6 else oldNode 5 1 9 7) []).deals envDI
      (fun _ => 3) (fun _ => 4) (fun _ => 5) 5 1).2 = .ok out ∧ 0 ∈ out.keys := by
    intro j
    split
    · obtain ⟨out, h⟩ := Res.exists_ok (r := ((dRun envDI (oldNode 3 0 5 6) []).deals envDI (fun _ => 3)
        (fun _ => 4) (fun _ => 5) 5 1).2) (by decide +kernel)
      exact ⟨out, h, ((C119_deals envDI (oldConfig 3 0 5) 0 [6] _ rfl [] _ _ _ _ _ out h).2.1 0).2
        (by decide +kernel)⟩
    · obtain ⟨out, h⟩ := Res.exists_ok (r := ((dRun envDI (oldNode 5 1 9 7) []).deals envDI (fun _ => 3)
        (fun _ => 4) (fun _ => 5) 5 1).2) (by decide +kernel)
      exact ⟨out, h, ((C119_deals envDI (oldConfig 5 1 9) 0 [7] _ rfl [] _ _ _ _ _ out h).2.1 0).2
        (by decide +kernel)⟩
  choose out hout hmem using hout
  have := C119_expected_deals envDI ⟨2, [6, 10], some [2, 8], [4, 8], none, 2, 2⟩ 0 [] newNode newNode_ok.1
    newNode_ok.2.2.1 (by decide +kernel) []
    (fun j => if j = 0 then oldConfig 3 0 5 else oldConfig 5 1 9) (fun _ => 0)
    (fun j => if j = 0 then [6] else [7]) (fun j => if j = 0 then oldNode 3 0 5 6 else oldNode 5 1 9 7)
    (fun j hj => by
      have hj : j < 2 := hj
      obtain rfl | rfl : j = 0 ∨ j = 1 := by omega
      · exact ⟨rfl, rfl, rfl, rfl, by decide +kernel⟩
      · exact ⟨rfl, rfl, rfl, rfl, by decide +kernel⟩)
    (fun _ => []) _ _ _ _ _ out (fun j _ => hout j)
  rw [show (dRun envDI newNode []).expectedDeals = newNode.expectedDeals from rfl] at this
  rw [this]
  have hl : newNode.c.oldNodes.length = 2 := by decide +kernel
  have hn : newNode.nidx = 0 := newNode_ok.2.2.2.1
  rw [hl, hn, List.filter_eq_self.2]
  · rfl
  · intro j hj
    have hj := List.mem_range.1 hj
    have hne : ∀ j < 2, newNode.c.oldNodes[j]? ≠ some ((2 : ZMod 11) • envDI.suite.base) := by decide +kernel
    exact decide_eq_true ⟨hne j hj, hmem j⟩

end Kyber.Props
