/-
Lemmas about the Pedersen DKG model.
-/
import Verif.Spec.DkgPedersen
import Verif.Lemmas.VssPedersenHonest

set_option linter.unusedSectionVars false

namespace Kyber.DkgP

open Kyber.Poly Kyber.Spec Kyber.VssP

variable {F G : Type} [Field F] [AddCommGroup G] [SMul F G] [DecidableEq G]

/-- The calls a DKG participant makes on the verifier of dealer `i`. -/
def Allowed (d : Dkg F G) (i : Nat) : VCall F G → Prop
  | .encDeal _ _ | .response _ | .justification _ | .timeout => True
  | .unsafeSet idx b =>
    if d.isResharing then b = statusComplaint
    else b = statusApproval ∧ ∃ P, d.c.newNodes[i]? = some P ∧ findPub d.c.newNodes P = (idx, true)
  | _ => False

/-- What every call preserves, and how the verifiers evolve. -/
structure Evolves (E : DkgEnv F G) (d d' : Dkg F G) : Prop where
  c : d'.c = d.c
  pubb : d'.pubb = d.pubb
  dpub : d'.dpub = d.dpub
  oidx : d'.oidx = d.oidx
  nidx : d'.nidx = d.nidx
  oldT : d'.oldT = d.oldT
  newT : d'.newT = d.newT
  isResharing : d'.isResharing = d.isResharing
  canIssue : d'.canIssue = d.canIssue
  canReceive : d'.canReceive = d.canReceive
  newPresent : d'.newPresent = d.newPresent
  oldPresent : d'.oldPresent = d.oldPresent
  dealer : { d'.dealer with aggregator := d.dealer.aggregator } = d.dealer
  keys : d'.verifiers.keys = d.verifiers.keys
  ver : ∀ i v, d.verifiers.get i = some v → ∃ vcs : List (VCall F G), (∀ c ∈ vcs, Allowed d i c) ∧
    d'.verifiers.get i = some (vRun E.toEnv v vcs)

theorem Evolves.refl (E : DkgEnv F G) (d : Dkg F G) : Evolves E d d :=
  ⟨rfl, rfl, rfl, rfl, rfl, rfl, rfl, rfl, rfl, rfl, rfl, rfl, rfl, rfl,
    fun _ _ h => ⟨[], by simp, h⟩⟩

theorem Evolves.allowed {E : DkgEnv F G} {d d' : Dkg F G} (h : Evolves E d d') (i : Nat)
    (c : VCall F G) : Allowed d' i c ↔ Allowed d i c := by
  cases c <;> simp only [Allowed, h.isResharing, h.c]

theorem Evolves.trans {E : DkgEnv F G} {a b c : Dkg F G} (h : Evolves E a b) (h' : Evolves E b c) :
    Evolves E a c where
  c := h'.c.trans h.c
  pubb := h'.pubb.trans h.pubb
  dpub := h'.dpub.trans h.dpub
  oidx := h'.oidx.trans h.oidx
  nidx := h'.nidx.trans h.nidx
  oldT := h'.oldT.trans h.oldT
  newT := h'.newT.trans h.newT
  isResharing := h'.isResharing.trans h.isResharing
  canIssue := h'.canIssue.trans h.canIssue
  canReceive := h'.canReceive.trans h.canReceive
  newPresent := h'.newPresent.trans h.newPresent
  oldPresent := h'.oldPresent.trans h.oldPresent
  dealer := by
    have h1 := h.dealer
    rw [← h'.dealer] at h1
    exact h1
  keys := h'.keys.trans h.keys
  ver i v hv := by
    obtain ⟨l, h1, h2⟩ := h.ver i v hv
    obtain ⟨l', h3, h4⟩ := h'.ver i _ h2
    refine ⟨l ++ l', ?_, by rw [h4]; simp [vRun, List.foldl_append]⟩
    intro c hc
    rcases List.mem_append.1 hc with hc | hc
    · exact h1 c hc
    · exact (h.allowed i c).1 (h3 c hc)

/-- Writing back a verifier that made allowed calls. -/
theorem setVerifier_evolves (E : DkgEnv F G) (d : Dkg F G) (i : Nat) (v w : Verifier F G)
    (hv : d.verifiers.get i = some v) (vcs : List (VCall F G)) (hw : w = vRun E.toEnv v vcs)
    (hall : ∀ c ∈ vcs, Allowed d i c) : Evolves E d (d.setVerifier i w) where
  c := rfl
  pubb := rfl
  dpub := rfl
  oidx := rfl
  nidx := rfl
  oldT := rfl
  newT := rfl
  isResharing := rfl
  canIssue := rfl
  canReceive := rfl
  newPresent := rfl
  oldPresent := rfl
  dealer := rfl
  keys := by
    show (d.verifiers.insert i w).keys = _
    rw [AMap.keys_insert, if_pos (AMap.get_isSome.1 (by rw [hv]; rfl))]
  ver j u hu := by
    by_cases h : j = i
    · subst h
      rw [hv] at hu
      cases hu
      refine ⟨vcs, hall, ?_⟩
      show (d.verifiers.insert j w).get j = _
      rw [AMap.get_insert, if_pos rfl, hw]
    · refine ⟨[], by simp, ?_⟩
      show (d.verifiers.insert i w).get j = _
      rw [AMap.get_insert, if_neg h, hu]; rfl

theorem findPub_some {list : List G} {p : G} {idx : Nat} (h : findPub list p = (idx, true)) :
    list[idx]? = some p ∧ ∀ j < idx, list[j]? ≠ some p := by
  unfold findPub at h
  split at h
  · rename_i i hi
    cases h
    rw [List.findIdx?_eq_some_iff_getElem] at hi
    obtain ⟨hl, he, hlt⟩ := hi
    refine ⟨by rw [List.getElem?_eq_getElem hl]; simpa using he, ?_⟩
    intro j hj hjp
    obtain ⟨hjl, hje⟩ := List.getElem?_eq_some_iff.1 hjp
    have := hlt j hj
    simp [hje] at this
  · cases h

theorem findPub_nodup {list : List G} (hnd : list.Nodup) {p : G} {i : Nat}
    (h : list[i]? = some p) : findPub list p = (i, true) := by
  unfold findPub
  have : list.findIdx? (fun q => decide (q = p)) = some i := by
    rw [List.findIdx?_eq_some_iff_getElem]
    obtain ⟨hl, he⟩ := List.getElem?_eq_some_iff.1 h
    refine ⟨hl, by simpa using he, ?_⟩
    intro j hj hjp
    simp only [decide_eq_true_eq] at hjp
    have := (List.Nodup.getElem_inj_iff hnd (hi := by omega) (hj := hl)).1 (hjp.trans he.symm)
    omega
  rw [this]

theorem findPub_none {list : List G} {p : G} (h : p ∉ list) : findPub list p = (0, false) := by
  unfold findPub
  have : list.findIdx? (fun q => decide (q = p)) = none := by
    rw [List.findIdx?_eq_none_iff]
    intro q hq
    simp only [decide_eq_false_iff_not]
    rintro rfl; exact h hq
  rw [this]

/-! ### Every call evolves the state -/

theorem unsafeSet_run (E : Env F G) (v : Verifier F G) (i : Nat) (b : Bool) :
    v.unsafeSetResponseDkg i b = vRun E v [.unsafeSet i b] := rfl

theorem processDeal_evolves (E : DkgEnv F G) (d : Dkg F G) (dd : Deal G) (k k' : F) :
    Evolves E d (d.processDeal E dd k k').1 := by
  unfold Dkg.processDeal
  split
  · exact Evolves.refl E d
  split
  · exact Evolves.refl E d
  rename_i pubb hpub
  split
  · exact Evolves.refl E d
  · exact Evolves.refl E d
  split
  · exact Evolves.refl E d
  rename_i ver hver
  have hrun : ∀ w r, ver.processEncryptedDeal E.toEnv dd.deal k = (w, r) →
      w = vRun E.toEnv ver [.encDeal dd.deal k] := by
    intro w r h
    show w = (ver.processEncryptedDeal E.toEnv dd.deal k).1
    rw [h]
  split
  · rename_i w e hw
    exact setVerifier_evolves E d _ ver w hver _ (hrun _ _ hw) (by simp [Allowed])
  · rename_i w hw
    exact setVerifier_evolves E d _ ver w hver _ (hrun _ _ hw) (by simp [Allowed])
  · rename_i w resp hw
    have hfin : Evolves E d (d.setVerifier dd.index
        (if (findPub d.c.newNodes pubb).2 && !d.isResharing then
          w.unsafeSetResponseDkg (findPub d.c.newNodes pubb).1 statusApproval else w)) := by
      split
      · rename_i hc
        rw [Bool.and_eq_true, Bool.not_eq_true'] at hc
        refine setVerifier_evolves E d _ ver _ hver
          [.encDeal dd.deal k, .unsafeSet (findPub d.c.newNodes pubb).1 statusApproval] ?_ ?_
        · rw [hrun _ _ hw]; rfl
        · intro c hc'
          simp only [List.mem_cons, List.not_mem_nil, or_false] at hc'
          rcases hc' with rfl | rfl
          · trivial
          · simp only [Allowed, hc.2, Bool.false_eq_true, if_false, true_and]
            rw [hc.2] at hpub
            exact ⟨pubb, hpub, Prod.ext rfl hc.1⟩
      · exact setVerifier_evolves E d _ ver w hver _ (hrun _ _ hw) (by simp [Allowed])
    simp only
    split
    · rename_i hre
      rw [Bool.and_eq_true] at hre
      split
      · split
        · unfold Dkg.reject
          simp only
          split
          · refine setVerifier_evolves E d _ ver _ hver
              [.encDeal dd.deal k, .unsafeSet (findPub d.c.newNodes pubb).1 statusComplaint,
                .unsafeSet d.nidx statusComplaint] (by rw [hrun _ _ hw]; rfl) ?_
            intro c hc'
            simp only [List.mem_cons, List.not_mem_nil, or_false] at hc'
            rcases hc' with rfl | rfl | rfl <;> simp [Allowed, hre.1]
          · refine setVerifier_evolves E d _ ver _ hver
              [.encDeal dd.deal k, .unsafeSet d.nidx statusComplaint] (by rw [hrun _ _ hw]; rfl) ?_
            intro c hc'
            simp only [List.mem_cons, List.not_mem_nil, or_false] at hc'
            rcases hc' with rfl | rfl <;> simp [Allowed, hre.1]
        · exact hfin
      · exact setVerifier_evolves E d _ ver w hver _ (hrun _ _ hw) (by simp [Allowed])
    · exact hfin

theorem processed_evolves (E : DkgEnv F G) (d : Dkg F G) (b : Bool) :
    Evolves E d { d with processed := b } :=
  ⟨rfl, rfl, rfl, rfl, rfl, rfl, rfl, rfl, rfl, rfl, rfl, rfl, rfl, rfl,
    fun _ _ h => ⟨[], by simp, h⟩⟩

theorem dealsLoop_evolves (E : DkgEnv F G) (encs : List (EncryptedDeal G)) (rnd : Nat → F)
    (vk vk' : F) (l : List Nat) (d : Dkg F G) (dd : AMap (Deal G)) :
    Evolves E d (Dkg.dealsLoop E encs rnd vk vk' l d dd).1 := by
  induction l generalizing d dd with
  | nil => exact Evolves.refl E d
  | cons i l ih =>
    unfold Dkg.dealsLoop
    split
    · exact Evolves.refl E d
    · rename_i e he
      simp only
      split
      · split
        · exact ih _ _
        · have h := (processed_evolves E d true).trans (processDeal_evolves E
            { d with processed := true } (d.signDeal E e (rnd i)) vk vk')
          split
          · rename_i d' r hd'
            rw [hd'] at h
            split
            · exact h
            · exact h.trans (ih _ _)
          · rename_i d' e' hd'
            rw [hd'] at h
            exact h
          · rename_i d' hd'
            rw [hd'] at h
            exact h
      · exact ih _ _

theorem deals_evolves (E : DkgEnv F G) (d : Dkg F G) (dh k rnd : Nat → F) (vk vk' : F) :
    Evolves E d (d.deals E dh k rnd vk vk').1 := by
  unfold Dkg.deals
  split
  · exact Evolves.refl E d
  split
  · exact Evolves.refl E d
  · exact Evolves.refl E d
  · exact dealsLoop_evolves E _ _ _ _ _ _ _

theorem dealer_evolves (E : DkgEnv F G) (d : Dkg F G) (dl : Dealer F G)
    (h : { dl with aggregator := d.dealer.aggregator } = d.dealer) :
    Evolves E d { d with dealer := dl } :=
  ⟨rfl, rfl, rfl, rfl, rfl, rfl, rfl, rfl, rfl, rfl, rfl, rfl, h, rfl,
    fun _ _ h => ⟨[], by simp, h⟩⟩

theorem dealer_processResponse (E : Env F G) (dl : Dealer F G) (r : VssP.Response) (k : F) :
    (dl.processResponse E r k).1 =
      { dl with aggregator := (dl.aggregator.verifyResponse E.suite r).1 } := by
  unfold Dealer.processResponse
  simp only
  split
  · rfl
  · rfl
  · split
    · rfl
    · split <;> rfl

theorem old_evolves (E : DkgEnv F G) (d : Dkg F G) (m : AMap (Aggregator F G)) :
    Evolves E d { d with oldAggregators := m } :=
  ⟨rfl, rfl, rfl, rfl, rfl, rfl, rfl, rfl, rfl, rfl, rfl, rfl, rfl, rfl,
    fun _ _ h => ⟨[], by simp, h⟩⟩

theorem processResponse_evolves (E : DkgEnv F G) (d : Dkg F G) (r : Response) (k : F) :
    Evolves E d (d.processResponse E r k).1 := by
  unfold Dkg.processResponse
  split
  · unfold Dkg.processResharingResponse
    simp only
    split
    · exact old_evolves E d _
    · exact old_evolves E d _
    · split
      · exact old_evolves E d _
      · split
        · exact old_evolves E d _
        · split <;> exact old_evolves E d _
  · split
    · exact Evolves.refl E d
    rename_i v hv
    have hrun : ∀ w x, v.processResponse E.suite r.response = (w, x) →
        w = vRun E.toEnv v [.response r.response] := by
      intro w x h
      show w = (v.processResponse E.suite r.response).1
      rw [h]
    have hstep : ∀ w x, v.processResponse E.suite r.response = (w, x) →
        Evolves E d (d.setVerifier r.index w) := fun w x h =>
      setVerifier_evolves E d _ v w hv _ (hrun _ _ h) (by simp [Allowed])
    split
    · rename_i w e hw; exact hstep _ _ hw
    · rename_i w hw; exact hstep _ _ hw
    · rename_i w hw
      simp only
      split
      · exact hstep _ _ hw
      · have hd : ∀ dl x, (d.setVerifier r.index w).dealer.processResponse E.toEnv r.response k = (dl, x) →
            Evolves E d { d.setVerifier r.index w with dealer := dl } := by
          intro dl x h
          refine (hstep _ _ hw).trans (dealer_evolves E _ _ ?_)
          have := dealer_processResponse E.toEnv (d.setVerifier r.index w).dealer r.response k
          rw [h] at this
          simp only at this
          rw [this]
        split
        · rename_i dl e h; exact hd _ _ h
        · rename_i dl h; exact hd _ _ h
        · rename_i dl h; exact hd _ _ h
        · rename_i dl j h
          have hget : ({ d.setVerifier r.index w with dealer := dl } : Dkg F G).verifiers.get r.index =
              some w := by
            show (d.verifiers.insert r.index w).get r.index = _
            rw [AMap.get_insert, if_pos rfl]
          have hj : ∀ u x, w.processJustification E.suite j = (u, x) →
              Evolves E d (({ d.setVerifier r.index w with dealer := dl } : Dkg F G).setVerifier r.index u) := by
            intro u x hu
            refine (hd _ _ h).trans (setVerifier_evolves E _ _ w u hget [.justification j] ?_ (by simp [Allowed]))
            show u = (w.processJustification E.suite j).1
            rw [hu]
          split
          · rename_i u e hu; exact hj _ _ hu
          · rename_i u hu; exact hj _ _ hu
          · rename_i u hu; exact hj _ _ hu

theorem processJustification_evolves (E : DkgEnv F G) (d : Dkg F G) (j : Justification F G) :
    Evolves E d (d.processJustification E j).1 := by
  unfold Dkg.processJustification
  split
  · exact Evolves.refl E d
  · rename_i v hv
    exact setVerifier_evolves E d _ v _ hv [.justification j.justification] rfl (by simp [Allowed])

theorem get_map {α β : Type} (m : AMap α) (f : α → β) (k : Nat) :
    AMap.get (m.map (fun e => (e.1, f e.2))) k = (m.get k).map f := by
  induction m with
  | nil => rfl
  | cons e m ih =>
    obtain ⟨a, b⟩ := e
    rw [List.map_cons, AMap.get_cons, AMap.get_cons, ih]
    split <;> rfl

theorem setTimeout_evolves (E : DkgEnv F G) (d : Dkg F G) : Evolves E d d.setTimeout where
  c := rfl
  pubb := rfl
  dpub := rfl
  oidx := rfl
  nidx := rfl
  oldT := rfl
  newT := rfl
  isResharing := rfl
  canIssue := rfl
  canReceive := rfl
  newPresent := rfl
  oldPresent := rfl
  dealer := rfl
  keys := by
    show AMap.keys (d.verifiers.map (fun e => (e.1, e.2.setTimeout))) = _
    simp [AMap.keys]
  ver i v hv := by
    refine ⟨[.timeout], by simp [Allowed], ?_⟩
    show AMap.get (d.verifiers.map _) i = _
    rw [get_map, hv]; rfl

theorem dStep_evolves (E : DkgEnv F G) (d : Dkg F G) (c : DCall F G) : Evolves E d (dStep E d c) := by
  cases c with
  | deals dh k rnd vk vk' => exact deals_evolves E d dh k rnd vk vk'
  | deal dd k k' => exact processDeal_evolves E d dd k k'
  | response r k => exact processResponse_evolves E d r k
  | justification j => exact processJustification_evolves E d j
  | timeout => exact setTimeout_evolves E d

theorem dRun_evolves (E : DkgEnv F G) (d : Dkg F G) (cs : List (DCall F G)) :
    Evolves E d (dRun E d cs) := by
  induction cs generalizing d with
  | nil => exact Evolves.refl E d
  | cons c cs ih => exact (dStep_evolves E d c).trans (ih _)

end Kyber.DkgP
