/-
Lemmas for C123: two participants of the Pedersen DKG that hear the same about a dealer.
-/
import Verif.Lemmas.DkgRobust
import Verif.Spec.Agreement

set_option linter.unusedSectionVars false

namespace Kyber.DkgP

open Kyber.Poly Kyber.Spec Kyber.VssP

variable {F G : Type} [Field F] [AddCommGroup G] [DecidableEq G] [SMul F G]

/-- What is stored about the answer of `l`. -/
def statusAt (a : Aggregator F G) (l : Nat) : Option Bool := (a.responses.get l).map (·.status)

/-- Two participants hold the same about a dealer, up to the answers of the indices `l` with
`c l = some s`: of these each of the two holds either nothing or `s`. -/
structure Like (pubs : List G) (c : Nat → Option Bool) (a b : Aggregator F G) : Prop where
  va : a.verifiers = pubs
  vb : b.verifiers = pubs
  t : a.t = b.t
  sid : a.sid = b.sid
  bad : a.badDealer = b.badDealer
  timeout : a.timeout = b.timeout
  da : a.deal.isSome
  db : b.deal.isSome
  same : ∀ l, c l = none → statusAt a l = statusAt b l
  open_ : ∀ l s, c l = some s → (statusAt a l = none ∨ statusAt a l = some s) ∧
    (statusAt b l = none ∨ statusAt b l = some s)

variable {pubs : List G} {c : Nat → Option Bool} {a b : Aggregator F G}

theorem remember_some {a : Aggregator F G} (h : a.deal.isSome) (d : VssP.Deal F G) : a.remember d = a := by
  unfold Aggregator.remember
  obtain ⟨q, hq⟩ := Option.isSome_iff_exists.1 h
  rw [hq]

/-- Nothing is open any more. -/
theorem Like.close (h : Like pubs c a b) (hf : ∀ l s, c l = some s → (statusAt a l).isSome ∧ (statusAt b l).isSome) :
    Like pubs (fun _ => none) a b := by
  refine { h with same := fun l _ => ?_, open_ := fun l s hs => by cases hs }
  cases hc : c l with
  | none => exact h.same l hc
  | some s =>
    obtain ⟨h1, h2⟩ := h.open_ l s hc
    obtain ⟨g1, g2⟩ := hf l s hc
    rcases h1 with h1 | h1
    · rw [h1] at g1; cases g1
    · rcases h2 with h2 | h2
      · rw [h2] at g2; cases g2
      · rw [h1, h2]

/-- The session id of a response fits. -/
def Fits (a : Aggregator F G) (r : VssP.Response) : Prop := a.sid = [] ∨ r.sessionId = a.sid

open Classical in
/-- What a response changes. -/
theorem statusAt_response (S : Suite F G) (h : a.verifiers = pubs) (r : VssP.Response) (l : Nat) :
    statusAt (a.verifyResponse S r).1 l =
      if l = r.index ∧ Fits a r ∧ Authentic S pubs r ∧ statusAt a l = none then some r.status
      else statusAt a l := by
  unfold Aggregator.verifyResponse VssP.findPub
  rw [h]
  by_cases hs : a.sid ≠ [] ∧ r.sessionId ≠ a.sid
  · rw [if_pos hs, if_neg]
    rintro ⟨-, h' | h', -⟩
    · exact hs.1 h'
    · exact hs.2 h'
  · have hs' : Fits a r := by
      unfold Fits
      by_contra hc
      rw [not_or] at hc
      exact hs hc
    rw [if_neg hs]
    cases hp : pubs[r.index]? with
    | none =>
      rw [if_neg]
      rintro ⟨-, -, ⟨P, hP, -⟩, -⟩
      rw [hp] at hP; cases hP
    | some P =>
      simp only
      have hauth : Authentic S pubs r ↔ Schnorr.verify S P (r.hash S) r.signature = .ok () := by
        unfold Authentic
        rw [hp]
        exact ⟨fun ⟨Q, hQ, hv⟩ => by cases hQ; exact hv, fun hv => ⟨P, rfl, hv⟩⟩
      cases hv : Schnorr.verify S P (r.hash S) r.signature with
      | err e => rw [if_neg]; rintro ⟨-, -, h', -⟩; rw [hauth, hv] at h'; cases h'
      | panic => rw [if_neg]; rintro ⟨-, -, h', -⟩; rw [hauth, hv] at h'; cases h'
      | ok u =>
        simp only
        unfold Aggregator.addResponse VssP.findPub
        rw [h, hp, if_neg (by simp)]
        cases hg : a.responses.get r.index with
        | some r' =>
          rw [if_pos (by simp), if_neg]
          rintro ⟨rfl, -, -, h'⟩
          unfold statusAt at h'
          rw [hg] at h'; cases h'
        | none =>
          rw [if_neg (by simp)]
          show ((a.responses.insert r.index r).get l).map (·.status) = _
          rw [AMap.get_insert]
          by_cases hl : l = r.index
          · subst hl
            rw [if_pos rfl, if_pos ⟨rfl, hs', hauth.2 hv, by unfold statusAt; rw [hg]; rfl⟩]
            rfl
          · rw [if_neg hl, if_neg (fun h' => hl h'.1)]
            rfl

theorem fields_addResponse (a : Aggregator F G) (r : VssP.Response) :
    (a.addResponse r).1.verifiers = a.verifiers ∧ (a.addResponse r).1.t = a.t ∧
    (a.addResponse r).1.sid = a.sid ∧ (a.addResponse r).1.badDealer = a.badDealer ∧
    (a.addResponse r).1.timeout = a.timeout ∧ (a.addResponse r).1.deal = a.deal := by
  rcases addResponse_cases a r with ⟨e, h'⟩ | ⟨hl, -, h'⟩ <;> rw [h'] <;> exact ⟨rfl, rfl, rfl, rfl, rfl, rfl⟩

theorem fields_response (S : Suite F G) (a : Aggregator F G) (r : VssP.Response) :
    (a.verifyResponse S r).1.verifiers = a.verifiers ∧ (a.verifyResponse S r).1.t = a.t ∧
    (a.verifyResponse S r).1.sid = a.sid ∧ (a.verifyResponse S r).1.badDealer = a.badDealer ∧
    (a.verifyResponse S r).1.timeout = a.timeout ∧ (a.verifyResponse S r).1.deal = a.deal := by
  rcases verifyResponse_cases S a r with ⟨e, h'⟩ | h' | ⟨pub, -, h2, -, h'⟩ <;> rw [h']
  · exact ⟨rfl, rfl, rfl, rfl, rfl, rfl⟩
  · exact ⟨rfl, rfl, rfl, rfl, rfl, rfl⟩
  · exact fields_addResponse a r

theorem Like.response (h : Like pubs c a b) (S : Suite F G) (r : VssP.Response)
    (hr : ∀ s, c r.index = some s → Fits a r → Authentic S pubs r → r.status = s) :
    Like pubs c (a.verifyResponse S r).1 (b.verifyResponse S r).1 := by
  obtain ⟨a0, a1, a2, a3, a4, a5⟩ := fields_response S a r
  obtain ⟨b0, b1, b2, b3, b4, b5⟩ := fields_response S b r
  have hf : Fits a r ↔ Fits b r := by unfold Fits; rw [h.sid]
  refine ⟨a0.trans h.va, b0.trans h.vb, by rw [a1, b1, h.t], by rw [a2, b2, h.sid],
    by rw [a3, b3, h.bad], by rw [a4, b4, h.timeout], by rw [a5]; exact h.da, by rw [b5]; exact h.db,
    fun l hl => ?_, fun l s hl => ?_⟩
  · rw [statusAt_response S h.va, statusAt_response S h.vb, h.same l hl]
    have hf' : Fits a r = Fits b r := propext hf
    rw [hf']
  · rw [statusAt_response S h.va, statusAt_response S h.vb]
    obtain ⟨h1, h2⟩ := h.open_ l s hl
    constructor
    · split
      · rename_i h'
        obtain ⟨rfl, g1, g2, -⟩ := h'
        exact Or.inr (by rw [hr s hl g1 g2])
      · exact h1
    · split
      · rename_i h'
        obtain ⟨rfl, g1, g2, -⟩ := h'
        exact Or.inr (by rw [hr s hl (hf.2 g1) g2])
      · exact h2

/-- The check of a deal in a justification. -/
theorem checkDeal_same (S : Suite F G) {a b : Aggregator F G} (hv : a.verifiers = b.verifiers)
    (hs : a.sid = b.sid) (ht : a.t = b.t) (d : VssP.Deal F G) : a.checkDeal S d = b.checkDeal S d := by
  unfold Aggregator.checkDeal
  rw [hv, hs, ht]

/-- What a justification changes, at a participant that holds a deal: at most the mark of the dealer. -/
theorem justification_eq (S : Suite F G) (a : Aggregator F G) (hd : a.deal.isSome) (ju : VssP.Justification F G) :
    (a.verifyJustification S ju).1 = a ∧ ¬ (ju.index < a.verifiers.length ∧ statusAt a ju.index = some false ∧
      ∃ e, a.checkDeal S ju.deal = .err e) ∨
    (a.verifyJustification S ju).1 = { a with badDealer := true } ∧ (ju.index < a.verifiers.length ∧
      statusAt a ju.index = some false ∧ ∃ e, a.checkDeal S ju.deal = .err e) := by
  unfold Aggregator.verifyJustification VssP.findPub
  by_cases hl : ju.index < a.verifiers.length
  swap
  · rw [List.getElem?_eq_none (by omega), if_pos (by rfl)]
    exact Or.inl ⟨rfl, fun h => hl h.1⟩
  rw [List.getElem?_eq_getElem hl, if_neg (by simp)]
  cases hg : a.responses.get ju.index with
  | none =>
    refine Or.inl ⟨rfl, fun h => ?_⟩
    have := h.2.1
    unfold statusAt at this
    rw [hg] at this; cases this
  | some r =>
    have hn : statusAt a ju.index = some r.status := by unfold statusAt; rw [hg]; rfl
    simp only
    by_cases hr : r.status = statusComplaint
    swap
    · rw [if_pos hr]
      refine Or.inl ⟨rfl, fun h => hr ?_⟩
      have := h.2.1
      rw [hn] at this
      exact Option.some.inj this
    · rw [if_neg (by simpa using hr)]
      unfold Aggregator.verifyDeal
      simp only [Bool.and_false, Bool.false_eq_true, if_false]
      rw [remember_some hd]
      cases hc : a.checkDeal S ju.deal with
      | ok u => exact Or.inl ⟨rfl, fun h => by obtain ⟨e, he⟩ := h.2.2; cases he⟩
      | panic => exact Or.inl ⟨rfl, fun h => by obtain ⟨e, he⟩ := h.2.2; cases he⟩
      | err e => exact Or.inr ⟨rfl, hl, by rw [hn, hr]; rfl, e, rfl⟩

theorem Like.justification (h : Like pubs c a b) (S : Suite F G) (ju : VssP.Justification F G)
    (hj : c ju.index ≠ some false) :
    Like pubs c (a.verifyJustification S ju).1 (b.verifyJustification S ju).1 := by
  have hck := checkDeal_same S (h.va.trans h.vb.symm) h.sid h.t ju.deal
  have hiff : statusAt a ju.index = some false ↔ statusAt b ju.index = some false := by
    cases hc : c ju.index with
    | none => rw [h.same _ hc]
    | some s =>
      obtain ⟨h1, h2⟩ := h.open_ _ s hc
      have hs : s = true := by
        cases s with
        | true => rfl
        | false => exact absurd hc hj
      subst hs
      constructor
      · intro h'; rcases h1 with h1 | h1 <;> rw [h1] at h' <;> cases h'
      · intro h'; rcases h2 with h2 | h2 <;> rw [h2] at h' <;> cases h'
  have hcond : (ju.index < a.verifiers.length ∧ statusAt a ju.index = some false ∧
      ∃ e, a.checkDeal S ju.deal = .err e) ↔ (ju.index < b.verifiers.length ∧
      statusAt b ju.index = some false ∧ ∃ e, b.checkDeal S ju.deal = .err e) := by
    rw [hiff, hck, h.va, h.vb]
  rcases justification_eq S a h.da ju with ⟨ha, na⟩ | ⟨ha, na⟩ <;>
    rcases justification_eq S b h.db ju with ⟨hb, nb⟩ | ⟨hb, nb⟩ <;> rw [ha, hb]
  · exact h
  · exact absurd (hcond.2 nb) na
  · exact absurd (hcond.1 na) nb
  · exact { h with bad := rfl }

theorem Like.time (h : Like pubs c a b) : Like pubs c a.setTimeout b.setTimeout :=
  { h with timeout := rfl }

/-- Two participants that hold the same count the same. -/
theorem Like.certified (h : Like pubs (fun _ => none) a b) : a.dealCertified = b.dealCertified := by
  have hc : ∀ l : List Nat, a.count l = b.count l := by
    intro l
    induction l with
    | nil => rfl
    | cons i l ih =>
      unfold Aggregator.count
      rw [ih]
      have := h.same i rfl
      unfold statusAt at this
      cases h1 : a.responses.get i with
      | none =>
        cases h2 : b.responses.get i with
        | none => rfl
        | some r => rw [h1, h2] at this; cases this
      | some r =>
        cases h2 : b.responses.get i with
        | none => rw [h1, h2] at this; cases this
        | some r' =>
          rw [h1, h2] at this
          have hs : r.status = r'.status := Option.some.inj this
          simp only [hs]
  unfold Aggregator.dealCertified
  simp only [h.va, h.vb, h.t, h.bad, h.timeout, hc]

/-! ### The participant -/

/-- The effect of a message on the answers about a dealer. -/
def aStep (S : Suite F G) (a : Aggregator F G) : About (VssP.Justification F G) → Aggregator F G
  | .response r => (a.verifyResponse S r).1
  | .justification ju => (a.verifyJustification S ju).1
  | .timeout => a.setTimeout

theorem aStep_deal (S : Suite F G) {a : Aggregator F G} (hd : a.deal.isSome)
    (m : About (VssP.Justification F G)) : (aStep S a m).deal.isSome := by
  cases m with
  | response r => show (a.verifyResponse S r).1.deal.isSome; rw [(fields_response S a r).2.2.2.2.2]; exact hd
  | justification ju =>
    show (a.verifyJustification S ju).1.deal.isSome
    rcases justification_eq S a hd ju with ⟨h', -⟩ | ⟨h', -⟩ <;> rw [h'] <;> exact hd
  | timeout => exact hd

/-- `process_response` for another dealer. -/
theorem processResponse_other {E : DkgEnv F G} {d : Dkg F G} (hre : d.isResharing = false)
    {j : Nat} (hne : j ≠ d.oidx) {v : Verifier F G} (hv : d.verifiers.get j = some v) (r : Response) (k : F) :
    (d.processResponse E r k).1.verifiers.get j =
      if r.index = j then some (v.processResponse E.suite r.response).1 else some v := by
  by_cases hj : r.index = j
  swap
  · rw [if_neg hj]
    rcases processResponse_ver hre hv r k with ⟨-, h'⟩ | ⟨h', -⟩
    · exact h'
    · exact absurd h' hj
  · rw [if_pos hj]
    have hset : ∀ w, (d.setVerifier r.index w).verifiers.get j = some w := by
      intro w
      show (d.verifiers.insert r.index w).get j = _
      rw [AMap.get_insert, if_pos hj.symm]
    unfold Dkg.processResponse
    rw [if_neg (by rw [hre]; simp), hj, hv]
    rw [hj] at hset
    simp only
    cases hp : v.processResponse E.suite r.response with
    | mk w res =>
      cases res with
      | err e => exact hset _
      | panic => exact hset _
      | ok u =>
        simp only
        rw [if_pos (Or.inr (show j ≠ (d.setVerifier j w).oidx from hne))]
        exact hset _

/-- What a participant holds about another dealer changes only by what it hears about it. -/
theorem step_about (E : DkgEnv F G) {d : Dkg F G} (hre : d.isResharing = false) (hnd : d.c.newNodes.Nodup)
    {j : Nat} (hne : j ≠ d.oidx) {v : Verifier F G}
    (hv : d.verifiers.get j = some v) (hd : v.aggregator.deal.isSome) (c : DCall F G) :
    ∃ w, (dStep E d c).verifiers.get j = some w ∧ w.aggregator =
      (match aboutP j c with
      | some m => aStep E.suite v.aggregator m
      | none => v.aggregator) := by
  have hpd : ∀ (d' : Dkg F G), Evolves E d d' → d'.verifiers.get j = some v → ∀ dd k k',
      (d'.processDeal E dd k k').1.verifiers.get j = some v := by
    intro d' hev hv' dd k k'
    rcases processDeal_ver (E := E) (d := d') (by rw [hev.isResharing]; exact hre)
      (by rw [hev.c]; exact hnd) hv' dd k k' with ⟨h', -⟩ | ⟨-, P, -, -, w, res, h1, h2⟩
    · exact h'
    · rcases processEncryptedDeal_cases E.toEnv v dd.deal k with (⟨e, h3⟩ | h3) | ⟨q, -, -, hn, -⟩
      · rw [h3] at h1; cases h1
        rcases h2 with ⟨-, -, h2⟩ | ⟨⟨r, hr⟩, -⟩
        · exact h2
        · cases hr
      · rw [h3] at h1; cases h1
        rcases h2 with ⟨-, -, h2⟩ | ⟨⟨r, hr⟩, -⟩
        · exact h2
        · cases hr
      · rw [hn] at hd; cases hd
  cases c with
  | deals dh k rnd vk vk' =>
    refine ⟨v, ?_, rfl⟩
    exact deals_ind (E := E) (fun d' => Evolves E d d' ∧ d'.verifiers.get j = some v) (d0 := d) dh k rnd vk vk'
      (fun d' h' => ⟨h'.1.trans (processed_evolves E d' true), h'.2⟩)
      (fun d' e _ h' _ => ⟨h'.1.trans (processDeal_evolves E d' _ vk vk'), hpd d' h'.1 h'.2 _ _ _⟩) d (Evolves.refl E d)
      ⟨Evolves.refl E d, hv⟩ |>.2
  | deal dd k k' => exact ⟨v, hpd d (Evolves.refl E d) hv dd k k', rfl⟩
  | response r k =>
    have := processResponse_other (E := E) hre hne hv r k
    by_cases hj : r.index = j
    · rw [if_pos hj] at this
      exact ⟨_, this, by simp only [aboutP, if_pos hj, aStep, Verifier.processResponse]⟩
    · rw [if_neg hj] at this
      exact ⟨_, this, by simp only [aboutP, if_neg hj]⟩
  | justification ju =>
    by_cases hj : ju.index = j
    · refine ⟨(v.processJustification E.suite ju.justification).1, ?_, ?_⟩
      · show (d.processJustification E ju).1.verifiers.get j = _
        unfold Dkg.processJustification
        rw [hj, hv]
        exact (AMap.get_insert _ _ _ _).trans (if_pos rfl)
      · simp only [aboutP, if_pos hj, aStep, Verifier.processJustification]
    · refine ⟨v, ?_, by simp only [aboutP, if_neg hj]⟩
      show (d.processJustification E ju).1.verifiers.get j = _
      unfold Dkg.processJustification
      split
      · exact hv
      · show (d.verifiers.insert ju.index _).get j = _
        rw [AMap.get_insert, if_neg (fun h => hj h.symm)]
        exact hv
  | timeout =>
    refine ⟨v.setTimeout, ?_, rfl⟩
    show AMap.get (d.verifiers.map _) j = _
    rw [get_map, hv]; rfl

theorem run_about (E : DkgEnv F G) {d : Dkg F G} (hre : d.isResharing = false) (hnd : d.c.newNodes.Nodup)
    {j : Nat} (hne : j ≠ d.oidx) {v : Verifier F G}
    (hv : d.verifiers.get j = some v) (hd : v.aggregator.deal.isSome) (cs : List (DCall F G)) :
    ∃ w, (dRun E d cs).verifiers.get j = some w ∧
      w.aggregator = (cs.filterMap (aboutP j)).foldl (aStep E.suite) v.aggregator := by
  induction cs generalizing d v with
  | nil => exact ⟨v, hv, rfl⟩
  | cons c cs ih =>
    obtain ⟨w, hw, ha⟩ := step_about E hre hnd hne hv hd c
    have hev := dStep_evolves E d c
    have hd' : w.aggregator.deal.isSome := by
      rw [ha]
      split
      · exact aStep_deal E.suite hd _
      · exact hd
    obtain ⟨u, hu, hu'⟩ := ih (d := dStep E d c) (v := w) (by rw [hev.isResharing]; exact hre)
      (by rw [hev.c]; exact hnd) (by rw [hev.oidx]; exact hne) hw hd'
    refine ⟨u, hu, ?_⟩
    rw [hu', ha, List.filterMap_cons]
    cases aboutP j c <;> rfl

/-- As long as a participant hears nothing about a dealer, its verifier is untouched, or holds a deal. -/
theorem step_quiet (E : DkgEnv F G) {d : Dkg F G} (hre : d.isResharing = false) (hnd : d.c.newNodes.Nodup)
    {j : Nat} (hne : j ≠ d.oidx) {v : Verifier F G} (hv : d.verifiers.get j = some v)
    (c : DCall F G) (hq : aboutP j c = none) :
    ∃ w, (dStep E d c).verifiers.get j = some w ∧ (w = v ∨ w.aggregator.deal.isSome) := by
  by_cases hd : v.aggregator.deal.isSome
  · obtain ⟨w, hw, ha⟩ := step_about E hre hnd hne hv hd c
    rw [hq] at ha
    exact ⟨w, hw, Or.inr (by rw [ha]; exact hd)⟩
  have hkeep : ∀ (d' : Dkg F G), Evolves E d d' → ∀ u, d'.verifiers.get j = some u →
      (u = v ∨ u.aggregator.deal.isSome) → ∀ dd k k', ∃ w,
      (d'.processDeal E dd k k').1.verifiers.get j = some w ∧ (w = v ∨ w.aggregator.deal.isSome) := by
    intro d' hev u hu hcase dd k k'
    rcases processDeal_ver (E := E) (d := d') (by rw [hev.isResharing]; exact hre)
      (by rw [hev.c]; exact hnd) hu dd k k' with ⟨h', -⟩ | ⟨-, P, -, -, w, res, h1, h2⟩
    · exact ⟨u, h', hcase⟩
    · have hw : w = u ∨ w.aggregator.deal.isSome := by
        rcases processEncryptedDeal_cases E.toEnv u dd.deal k with (⟨e, h3⟩ | h3) | ⟨q, -, -, hn, h3⟩
        · rw [h3] at h1; cases h1; exact Or.inl rfl
        · rw [h3] at h1; cases h1; exact Or.inl rfl
        · right
          have hr : (u.aggregator.remember q).deal.isSome := by
            unfold Aggregator.remember; rw [hn]; rfl
          rcases h3 with ⟨-, h3⟩ | ⟨st, -, h3, -⟩
          · rw [h3] at h1; cases h1; exact hr
          · rw [h1] at h3
            simp only at h3
            rw [h3]
            show ((u.aggregator.remember q).addResponse _).1.deal.isSome
            rw [(fields_addResponse _ _).2.2.2.2.2]; exact hr
      have hw' : ∀ r, res = .ok r → w.aggregator.deal.isSome := by
        intro r hr
        subst hr
        rcases processEncryptedDeal_cases E.toEnv u dd.deal k with (⟨e, h3⟩ | h3) | ⟨q, -, -, hn, h3⟩
        · rw [h3] at h1; cases h1
        · rw [h3] at h1; cases h1
        · have hr : (u.aggregator.remember q).deal.isSome := by
            unfold Aggregator.remember; rw [hn]; rfl
          rcases h3 with ⟨-, h3⟩ | ⟨st, -, h3, -⟩
          · rw [h3] at h1; cases h1
          · rw [h1] at h3
            simp only at h3
            rw [h3]
            show ((u.aggregator.remember q).addResponse _).1.deal.isSome
            rw [(fields_addResponse _ _).2.2.2.2.2]; exact hr
      rcases h2 with ⟨-, -, h2⟩ | ⟨⟨r, hr⟩, h2⟩
      · refine ⟨w, h2, ?_⟩
        rcases hw with rfl | hw
        · exact hcase
        · exact Or.inr hw
      · refine ⟨_, h2, Or.inr ?_⟩
        show (w.aggregator.addResponse _).1.deal.isSome
        rw [(fields_addResponse _ _).2.2.2.2.2]
        exact hw' r hr
  cases c with
  | deals dh k rnd vk vk' =>
    exact deals_ind (E := E) (fun d' => Evolves E d d' ∧ ∃ w, d'.verifiers.get j = some w ∧
        (w = v ∨ w.aggregator.deal.isSome)) (d0 := d) dh k rnd vk vk'
      (fun d' h' => ⟨h'.1.trans (processed_evolves E d' true), h'.2⟩)
      (fun d' e _ h' _ => ⟨h'.1.trans (processDeal_evolves E d' _ vk vk'), by
        obtain ⟨u, hu, hc⟩ := h'.2
        exact hkeep d' h'.1 u hu hc _ _ _⟩) d (Evolves.refl E d)
      ⟨Evolves.refl E d, v, hv, Or.inl rfl⟩ |>.2
  | deal dd k k' => exact hkeep d (Evolves.refl E d) v hv (Or.inl rfl) dd k k'
  | response r k =>
    have hj : r.index ≠ j := by
      intro hj; simp only [aboutP, if_pos hj] at hq; cases hq
    have := processResponse_other (E := E) hre hne hv r k
    rw [if_neg hj] at this
    exact ⟨v, this, Or.inl rfl⟩
  | justification ju =>
    have hj : ju.index ≠ j := by
      intro hj; simp only [aboutP, if_pos hj] at hq; cases hq
    refine ⟨v, ?_, Or.inl rfl⟩
    show (d.processJustification E ju).1.verifiers.get j = _
    unfold Dkg.processJustification
    split
    · exact hv
    · show (d.verifiers.insert ju.index _).get j = _
      rw [AMap.get_insert, if_neg (fun h => hj h.symm)]
      exact hv
  | timeout => simp [aboutP] at hq

theorem run_quiet (E : DkgEnv F G) {d : Dkg F G} (hre : d.isResharing = false) (hnd : d.c.newNodes.Nodup)
    {j : Nat} (hne : j ≠ d.oidx) {v : Verifier F G} (hv : d.verifiers.get j = some v)
    (cs : List (DCall F G)) (hq : ∀ c ∈ cs, aboutP j c = none) :
    ∃ w, (dRun E d cs).verifiers.get j = some w ∧ (w = v ∨ w.aggregator.deal.isSome) := by
  induction cs generalizing d v with
  | nil => exact ⟨v, hv, Or.inl rfl⟩
  | cons c cs ih =>
    obtain ⟨w, hw, hc⟩ := step_quiet E hre hnd hne hv c (hq c (by simp))
    have hev := dStep_evolves E d c
    obtain ⟨u, hu, hu'⟩ := ih (d := dStep E d c) (v := w) (by rw [hev.isResharing]; exact hre)
      (by rw [hev.c]; exact hnd) (by rw [hev.oidx]; exact hne) hw (fun c' hc' => hq c' (by simp [hc']))
    refine ⟨u, hu, ?_⟩
    rcases hu' with rfl | hu'
    · exact hc
    · exact Or.inr hu'

theorem statusAt_add (a : Aggregator F G) (r : VssP.Response) (hl : r.index < a.verifiers.length)
    (hn : statusAt a r.index = none) (l : Nat) :
    statusAt (a.addResponse r).1 l = if l = r.index then some r.status else statusAt a l := by
  have hg : a.responses.get r.index = none := by
    unfold statusAt at hn
    cases h : a.responses.get r.index with
    | none => rfl
    | some r' => rw [h] at hn; cases hn
  rcases addResponse_cases a r with ⟨e, h⟩ | ⟨-, -, h⟩
  · exfalso
    unfold Aggregator.addResponse VssP.findPub at h
    rw [List.getElem?_eq_getElem hl, hg] at h
    simp at h
  · rw [h]
    show ((a.responses.insert r.index r).get l).map (·.status) = _
    rw [AMap.get_insert]
    split
    · rfl
    · rfl

/-- What a participant holds right after it answered the first deal of another dealer. -/
theorem firstAnswers {E : DkgEnv F G} {d : Dkg F G} {x : F} {t i : Nat} {ps : List G} {p : G}
    (hre : d.isResharing = false) (hnd : ps.Nodup) (hn : d.c.newNodes = ps) (hi : ps[i]? = some (x • E.suite.base))
    {dd : DkgP.Deal G} (hp : ps[dd.index]? = some p) (hne : dd.index ≠ i) {v : Verifier F G}
    (hv : d.verifiers.get dd.index = some v)
    (hcase : v = startVer E.suite x ps t i p ∨ v.aggregator.deal.isSome) {k k' : F} {r : DkgP.Response}
    (h : (d.processDeal E dd k k').2 = .ok r) :
    r.response.index = i ∧ ∃ w q, (d.processDeal E dd k k').1.verifiers.get dd.index = some w ∧
      w.aggregator.deal = some q ∧ w.aggregator.t = q.t ∧ w.aggregator.sid = q.sessionId ∧
      w.aggregator.badDealer = false ∧ w.aggregator.timeout = false ∧ w.aggregator.verifiers = ps ∧
      ∀ l, statusAt w.aggregator l = if l = i then some r.response.status
        else if l = dd.index then some true else none := by
  have hres : ∀ w res, v.processEncryptedDeal E.toEnv dd.deal k = (w, res) →
      ∃ vr, res = .ok vr ∧ r.response = vr := by
    intro w res hpe
    unfold Dkg.processDeal at h
    split at h
    · cases h
    rw [hre] at h
    simp only [Bool.false_eq_true, if_false, Bool.false_and, Bool.not_false, Bool.and_true] at h
    split at h
    · cases h
    split at h
    · cases h
    · cases h
    rw [hv] at h
    simp only [hpe] at h
    cases res with
    | err e => cases h
    | panic => cases h
    | ok vr =>
      simp only at h
      cases h
      exact ⟨vr, rfl, rfl⟩
  rcases processDeal_ver (E := E) hre (hn ▸ hnd) hv dd k k' with ⟨-, h' | h', -⟩ | ⟨-, P, -, -, w, res, h1, h2⟩
  · exact absurd rfl h'
  · exact absurd h (h' r)
  obtain ⟨vr, rfl, hvr⟩ := hres w res h1
  rcases processEncryptedDeal_cases E.toEnv v dd.deal k with (⟨e, h3⟩ | h3) | ⟨q, -, -, hnone, h3⟩
  · rw [h3] at h1; cases h1
  · rw [h3] at h1; cases h1
  rcases hcase with rfl | hsome
  swap
  · rw [hnone] at hsome; cases hsome
  set v := startVer E.suite x ps t i p with hvdef
  rcases h3 with ⟨-, h3⟩ | ⟨st, -, h3, h4⟩
  · rw [h3] at h1; cases h1
  rw [h1] at h3 h4
  simp only at h3 h4
  have hil : i < ps.length := (List.getElem?_eq_some_iff.1 hi).1
  have hpl : dd.index < ps.length := (List.getElem?_eq_some_iff.1 hp).1
  have hrem : v.aggregator.remember q =
      { v.aggregator with commits := q.commitments, sid := q.sessionId, deal := some q, t := q.t } := by
    unfold Aggregator.remember; rw [hnone]
  have hempty : ∀ l, statusAt (v.aggregator.remember q) l = none := by
    intro l
    rw [hrem]; rfl
  have hrep : (mkReply E.toEnv v q k st).index = i ∧ (mkReply E.toEnv v q k st).status = st := ⟨rfl, rfl⟩
  have hvr' : vr = mkReply E.toEnv v q k st := by
    cases hadd : ((v.aggregator.remember q).addResponse (mkReply E.toEnv v q k st)).2 with
    | err e => rw [hadd] at h4; cases h4
    | panic => rw [hadd] at h4; cases h4
    | ok u => rw [hadd] at h4; cases h4; rfl
  have hst1 := statusAt_add (v.aggregator.remember q) (mkReply E.toEnv v q k st)
    (by rw [hrem]; exact hil) (hempty _)
  obtain ⟨f1, f2, f3, f4, f5, f6⟩ := fields_addResponse (v.aggregator.remember q) (mkReply E.toEnv v q k st)
  rcases h2 with ⟨h2, -⟩ | ⟨-, h2⟩
  · exact absurd rfl (h2 vr)
  refine ⟨by rw [hvr, hvr']; rfl, _, q, h2, ?_⟩
  have hwa : w.aggregator = ((v.aggregator.remember q).addResponse (mkReply E.toEnv v q k st)).1 := by rw [h3]
  show (w.aggregator.addResponse _).1.deal = _ ∧ (w.aggregator.addResponse _).1.t = _ ∧
    (w.aggregator.addResponse _).1.sid = _ ∧ (w.aggregator.addResponse _).1.badDealer = _ ∧
    (w.aggregator.addResponse _).1.timeout = _ ∧ (w.aggregator.addResponse _).1.verifiers = _ ∧
    ∀ l, statusAt (w.aggregator.addResponse _).1 l = _
  rw [← hwa] at f1 f2 f3 f4 f5 f6 hst1
  rw [hrem] at f1 f2 f3 f4 f5 f6
  obtain ⟨g1, g2, g3, g4, g5, g6⟩ := fields_addResponse w.aggregator
    { sessionId := w.aggregator.sid, index := dd.index, status := true, signature := [] }
  refine ⟨g6.trans f6, g2.trans f2, g3.trans f3, g4.trans f4, g5.trans f5, g1.trans f1, fun l => ?_⟩
  rw [statusAt_add _ _ (by rw [f1]; exact hpl) (by
    rw [hst1, if_neg (by rw [hrep.1]; exact hne), hempty]), hst1, hempty, hvr, hvr', hrep.1, hrep.2]
  by_cases hl : l = i
  · subst hl
    rw [if_neg (fun h => hne h.symm), if_pos rfl, if_pos rfl]
  · simp only [if_neg hl]

/-! ### The same messages -/

theorem Like.run {S : Suite F G} (h : Like pubs c a b) (B : List (About (VssP.Justification F G)))
    (hr : ∀ r s, .response r ∈ B → c r.index = some s → Fits a r → Authentic S pubs r → r.status = s)
    (hj : ∀ ju, .justification ju ∈ B → c ju.index ≠ some false) :
    Like pubs c (B.foldl (aStep S) a) (B.foldl (aStep S) b) := by
  induction B generalizing a b with
  | nil => exact h
  | cons m B ih =>
    rw [List.foldl_cons, List.foldl_cons]
    have hsid : (aStep S a m).sid = a.sid := by
      cases m with
      | response r => exact (fields_response S a r).2.2.1
      | justification ju =>
        show (a.verifyJustification S ju).1.sid = _
        rcases justification_eq S a h.da ju with ⟨h', -⟩ | ⟨h', -⟩ <;> rw [h']
      | timeout => rfl
    refine ih ?_ ?_ (fun ju hm => hj ju (by simp [hm]))
    · cases m with
      | response r => exact h.response S r (fun s h1 h2 h3 => hr r s (by simp) h1 h2 h3)
      | justification ju => exact h.justification S ju (hj ju (by simp))
      | timeout => exact h.time
    · intro r s hm h1 h2 h3
      exact hr r s (by simp [hm]) h1 (by unfold Fits at h2 ⊢; rw [hsid] at h2; exact h2) h3

theorem Like.run_closed {S : Suite F G} (h : Like pubs (fun _ => none) a b)
    (B : List (About (VssP.Justification F G))) :
    Like pubs (fun _ => none) (B.foldl (aStep S) a) (B.foldl (aStep S) b) :=
  h.run B (fun _ _ _ hc => by cases hc) (fun _ _ => by simp)

/-- An answer that was heard is held. -/
theorem statusAt_isSome {S : Suite F G} {a : Aggregator F G} (hv : a.verifiers = pubs) (hd : a.deal.isSome)
    (B : List (About (VssP.Justification F G))) {l : Nat}
    (h : (statusAt a l).isSome ∨ ∃ r, .response r ∈ B ∧ r.index = l ∧ Fits a r ∧ Authentic S pubs r) :
    (statusAt (B.foldl (aStep S) a) l).isSome := by
  induction B generalizing a with
  | nil =>
    rcases h with h | ⟨r, hr, -⟩
    · exact h
    · cases hr
  | cons m B ih =>
    rw [List.foldl_cons]
    have hkeep : (statusAt a l).isSome → (statusAt (aStep S a m) l).isSome := by
      intro h0
      cases m with
      | response r =>
        show (statusAt (a.verifyResponse S r).1 l).isSome
        rw [statusAt_response S hv]
        split
        · rfl
        · exact h0
      | justification ju =>
        show (statusAt (a.verifyJustification S ju).1 l).isSome
        rcases justification_eq S a hd ju with ⟨h', -⟩ | ⟨h', -⟩ <;> rw [h'] <;> exact h0
      | timeout => exact h0
    have hfields : (aStep S a m).verifiers = a.verifiers ∧ (aStep S a m).sid = a.sid := by
      cases m with
      | response r => exact ⟨(fields_response S a r).1, (fields_response S a r).2.2.1⟩
      | justification ju =>
        show (a.verifyJustification S ju).1.verifiers = _ ∧ (a.verifyJustification S ju).1.sid = _
        rcases justification_eq S a hd ju with ⟨h', -⟩ | ⟨h', -⟩ <;> rw [h'] <;> exact ⟨rfl, rfl⟩
      | timeout => exact ⟨rfl, rfl⟩
    refine ih (hfields.1.trans hv) (aStep_deal S hd m) ?_
    rcases h with h | ⟨r, hr, h1, h2, h3⟩
    · exact Or.inl (hkeep h)
    · rcases List.mem_cons.1 hr with rfl | hr
      · left
        by_cases hs : (statusAt a l).isSome
        · exact hkeep hs
        · show (statusAt (a.verifyResponse S r).1 l).isSome
          rw [statusAt_response S hv, if_pos ⟨h1.symm, h2, h3, by simpa using hs⟩]
          rfl
      · exact Or.inr ⟨r, hr, h1, by unfold Fits at h2 ⊢; rw [hfields.2]; exact h2, h3⟩

end Kyber.DkgP
