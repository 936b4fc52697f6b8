/-
Lemmas for C123: two participants of the Rabin DKG that hear the same about a dealer.
-/
import Verif.Lemmas.DkgRabinRobust
import Verif.Spec.Agreement

set_option linter.unusedSectionVars false

namespace Kyber.DkgR

open Kyber.Poly Kyber.Spec Kyber.VssR
open Kyber.VssP (EncryptedDeal context findPub validT)

variable {F G : Type} [Field F] [AddCommGroup G] [DecidableEq G] [SMul F G]

/-- What is stored about the answer of `l`. -/
def statusAt (a : Aggregator F G) (l : Nat) : Option Bool := (a.responses.get l).map (·.status)

/-- Two participants hold the same about a dealer, up to the answers of the indices `l` with
`c l = some s`: of these each of the two holds either nothing or `s`. -/
structure Like (pubs : List G) (c : Nat → Option Bool) (a b : Aggregator F G) : Prop where
  wa : Wf pubs a
  wb : Wf pubs b
  t : a.t = b.t
  sid : a.sid = b.sid
  bad : a.badDealer = b.badDealer
  da : a.deal.isSome
  db : b.deal.isSome
  same : ∀ l, c l = none → statusAt a l = statusAt b l
  open_ : ∀ l s, c l = some s → (statusAt a l = none ∨ statusAt a l = some s) ∧
    (statusAt b l = none ∨ statusAt b l = some s)

variable {pubs : List G} {c : Nat → Option Bool} {a b : Aggregator F G}

theorem remember_some {a : Aggregator F G} (h : a.deal.isSome) (d : VssR.Deal F G) : a.remember d = a := by
  unfold Aggregator.remember
  obtain ⟨q, hq⟩ := Option.isSome_iff_exists.1 h
  rw [hq]

/-- Nothing is open any more. -/
theorem Like.close (h : Like pubs c a b) (hf : ∀ l s, c l = some s → (statusAt a l).isSome ∧ (statusAt b l).isSome) :
    Like pubs (fun _ => none) a b := by
  refine { h with same := fun l _ => ?_, open_ := fun l s hs => by cases hs }
  cases hc : c l with
  | none => exact h.same l hc
  | some s =>
    obtain ⟨h1, h2⟩ := h.open_ l s hc
    obtain ⟨g1, g2⟩ := hf l s hc
    rcases h1 with h1 | h1
    · rw [h1] at g1; cases g1
    · rcases h2 with h2 | h2
      · rw [h2] at g2; cases g2
      · rw [h1, h2]

theorem wf_response (S : Suite F G) (h : Wf pubs a) (r : VssP.Response) :
    Wf pubs (a.verifyResponse S r).1 := by
  rcases verifyResponse_cases S a r with ⟨e, h'⟩ | h' | ⟨pub, -, h2, -, h'⟩ <;> rw [h']
  · exact h
  · exact h
  · rcases addResponse_cases a r with ⟨e, h'⟩ | ⟨hl, -, h'⟩ <;> rw [h']
    · exact h
    · refine ⟨h.verifiers, AMap.nodup_insert h.nodup _ _, fun i r' hr' => ?_⟩
      change (a.responses.insert r.index r).get i = _ at hr'
      rw [AMap.get_insert] at hr'
      split at hr'
      · rename_i hi; cases hr'; subst hi; exact ⟨rfl, h.verifiers ▸ hl⟩
      · exact h.index i r' hr'

open Classical in
/-- What a response changes. -/
theorem statusAt_response (S : Suite F G) (h : Wf pubs a) (r : VssP.Response) (l : Nat) :
    statusAt (a.verifyResponse S r).1 l =
      if l = r.index ∧ r.sessionId = a.sid ∧ Authentic S pubs r ∧ statusAt a l = none then some r.status
      else statusAt a l := by
  unfold Aggregator.verifyResponse findPub
  rw [h.verifiers]
  by_cases hs : r.sessionId = a.sid
  · rw [if_neg (by simpa using hs)]
    cases hp : pubs[r.index]? with
    | none =>
      rw [if_neg]
      rintro ⟨-, -, ⟨P, hP, -⟩, -⟩
      rw [hp] at hP; cases hP
    | some P =>
      simp only
      have hauth : Authentic S pubs r ↔ Schnorr.verify S P (r.hash S) r.signature = .ok () := by
        unfold Authentic
        rw [hp]
        exact ⟨fun ⟨Q, hQ, hv⟩ => by cases hQ; exact hv, fun hv => ⟨P, rfl, hv⟩⟩
      cases hv : Schnorr.verify S P (r.hash S) r.signature with
      | err e => rw [if_neg]; rintro ⟨-, -, h', -⟩; rw [hauth, hv] at h'; cases h'
      | panic => rw [if_neg]; rintro ⟨-, -, h', -⟩; rw [hauth, hv] at h'; cases h'
      | ok u =>
        simp only
        unfold Aggregator.addResponse findPub
        rw [h.verifiers, hp, if_neg (by simp)]
        cases hg : a.responses.get r.index with
        | some r' =>
          rw [if_pos (by simp), if_neg]
          rintro ⟨rfl, -, -, h'⟩
          unfold statusAt at h'
          rw [hg] at h'; cases h'
        | none =>
          rw [if_neg (by simp)]
          show ((a.responses.insert r.index r).get l).map (·.status) = _
          rw [AMap.get_insert]
          by_cases hl : l = r.index
          · subst hl
            rw [if_pos rfl, if_pos ⟨rfl, hs, hauth.2 hv, by unfold statusAt; rw [hg]; rfl⟩]
            rfl
          · rw [if_neg hl, if_neg (fun h' => hl h'.1)]
            rfl
  · rw [if_pos hs, if_neg (fun h' => hs h'.2.1)]

theorem fields_response (S : Suite F G) (a : Aggregator F G) (r : VssP.Response) :
    (a.verifyResponse S r).1.t = a.t ∧ (a.verifyResponse S r).1.sid = a.sid ∧
    (a.verifyResponse S r).1.badDealer = a.badDealer ∧ (a.verifyResponse S r).1.deal = a.deal := by
  rcases verifyResponse_cases S a r with ⟨e, h'⟩ | h' | ⟨pub, -, h2, -, h'⟩ <;> rw [h']
  · exact ⟨rfl, rfl, rfl, rfl⟩
  · exact ⟨rfl, rfl, rfl, rfl⟩
  · rcases addResponse_cases a r with ⟨e, h'⟩ | ⟨hl, -, h'⟩ <;> rw [h'] <;> exact ⟨rfl, rfl, rfl, rfl⟩

theorem Like.response (h : Like pubs c a b) (S : Suite F G) (r : VssP.Response)
    (hr : ∀ s, c r.index = some s → r.sessionId = a.sid → Authentic S pubs r → r.status = s) :
    Like pubs c (a.verifyResponse S r).1 (b.verifyResponse S r).1 := by
  obtain ⟨a1, a2, a3, a4⟩ := fields_response S a r
  obtain ⟨b1, b2, b3, b4⟩ := fields_response S b r
  refine ⟨wf_response S h.wa r, wf_response S h.wb r, by rw [a1, b1, h.t], by rw [a2, b2, h.sid],
    by rw [a3, b3, h.bad], by rw [a4]; exact h.da, by rw [b4]; exact h.db, fun l hl => ?_, fun l s hl => ?_⟩
  · rw [statusAt_response S h.wa, statusAt_response S h.wb, h.same l hl, h.sid]
  · rw [statusAt_response S h.wa, statusAt_response S h.wb]
    obtain ⟨h1, h2⟩ := h.open_ l s hl
    constructor
    · split
      · rename_i h'
        obtain ⟨rfl, g1, g2, -⟩ := h'
        exact Or.inr (by rw [hr s hl g1 g2])
      · exact h1
    · split
      · rename_i h'
        obtain ⟨rfl, g1, g2, -⟩ := h'
        exact Or.inr (by rw [hr s hl (g1.trans h.sid.symm) g2])
      · exact h2

/-- The check of a deal in a justification. -/
theorem checkDeal_same (E : Env F G) {a b : Aggregator F G} (hv : a.verifiers = b.verifiers)
    (hs : a.sid = b.sid) (d : VssR.Deal F G) : a.checkDeal E d = b.checkDeal E d := by
  unfold Aggregator.checkDeal
  rw [hv, hs]

open Classical in
/-- What a justification changes, at a participant that holds a deal. -/
theorem statusAt_justification (E : Env F G) (h : Wf pubs a) (hd : a.deal.isSome)
    (ju : VssR.Justification F G) :
    let a' := (a.verifyJustification E ju).1
    Wf pubs a' ∧ a'.t = a.t ∧ a'.sid = a.sid ∧ a'.deal = a.deal ∧
    (a'.badDealer = true ↔ a.badDealer = true ∨ (statusAt a ju.index = some false ∧
      ∃ e, a.checkDeal E ju.deal = .err e)) ∧
    ∀ l, statusAt a' l = if l = ju.index ∧ statusAt a l = some false ∧ a.checkDeal E ju.deal = .ok ()
      then some true else statusAt a l := by
  have hst : ∀ r, a.responses.get ju.index = some r → statusAt a ju.index = some r.status := fun r hr => by
    unfold statusAt; rw [hr]; rfl
  unfold Aggregator.verifyJustification findPub
  rw [h.verifiers]
  by_cases hl : ju.index < pubs.length
  swap
  · have hn : statusAt a ju.index = none := by
      unfold statusAt
      cases hg : a.responses.get ju.index with
      | none => rfl
      | some r => exact absurd (h.index _ _ hg).2 hl
    rw [List.getElem?_eq_none (by omega), if_pos (by rfl)]
    refine ⟨h, rfl, rfl, rfl, ?_, fun l => ?_⟩
    · rw [hn]; simp
    · rw [if_neg]; rintro ⟨rfl, h', -⟩; rw [hn] at h'; cases h'
  · rw [List.getElem?_eq_getElem hl, if_neg (by simp)]
    cases hg : a.responses.get ju.index with
    | none =>
      have hn : statusAt a ju.index = none := by unfold statusAt; rw [hg]; rfl
      refine ⟨h, rfl, rfl, rfl, ?_, fun l => ?_⟩
      · rw [hn]; simp
      · rw [if_neg]; rintro ⟨rfl, h', -⟩; rw [hn] at h'; cases h'
    | some r =>
      simp only
      by_cases hr : r.status = true
      · rw [if_pos hr]
        have hn : statusAt a ju.index = some true := by rw [hst r hg, hr]
        refine ⟨h, rfl, rfl, rfl, ?_, fun l => ?_⟩
        · rw [hn]; simp
        · rw [if_neg]; rintro ⟨rfl, h', -⟩; rw [hn] at h'; cases h'
      · rw [if_neg hr]
        simp only [Bool.not_eq_true] at hr
        have hn : statusAt a ju.index = some false := by rw [hst r hg, hr]
        have hins : ∀ r', r'.index = ju.index → ∀ b : Aggregator F G, b.verifiers = a.verifiers →
            b.responses = a.responses.insert ju.index r' → Wf pubs b := by
          intro r' hr' b hb hb'
          refine wf_of_get h (AMap.nodup_insert h.nodup ju.index r') (fun i q hq => ?_) hb' hb
          rw [AMap.get_insert] at hq
          split at hq
          · rename_i hi; cases hq; subst hi; exact ⟨hr', hl⟩
          · exact h.index i q hq
        unfold Aggregator.verifyDeal
        simp only [Bool.and_false, Bool.false_eq_true, if_false]
        rw [remember_some hd]
        cases hc : a.checkDeal E ju.deal with
        | panic =>
          refine ⟨h, rfl, rfl, rfl, ?_, fun l => ?_⟩
          · simp
          · rw [if_neg]; rintro ⟨-, -, h'⟩; cases h'
        | err e =>
          refine ⟨hins r (h.index _ _ hg).1 _ rfl rfl, rfl, rfl, rfl, ?_, fun l => ?_⟩
          · simp [hn]
          · rw [if_neg (by rintro ⟨-, -, h'⟩; cases h')]
            show ((a.responses.insert ju.index r).get l).map (·.status) = _
            rw [AMap.get_insert]
            split
            · rename_i hl'; subst hl'; rw [hst r hg]; rfl
            · rfl
        | ok u =>
          refine ⟨hins { r with status := true } (h.index _ _ hg).1 _ rfl rfl, rfl, rfl, rfl, ?_, fun l => ?_⟩
          · simp
          · show ((a.responses.insert ju.index { r with status := true }).get l).map (·.status) = _
            rw [AMap.get_insert]
            by_cases hl' : l = ju.index
            · subst hl'; rw [if_pos rfl, if_pos ⟨rfl, hn, rfl⟩]; rfl
            · rw [if_neg hl', if_neg (fun h' => hl' h'.1)]; rfl

theorem Like.justification (h : Like pubs c a b) (E : Env F G) (ju : VssR.Justification F G)
    (hj : c ju.index ≠ some false) :
    Like pubs c (a.verifyJustification E ju).1 (b.verifyJustification E ju).1 := by
  obtain ⟨a1, a2, a3, a4, a5, a6⟩ := statusAt_justification E h.wa h.da ju
  obtain ⟨b1, b2, b3, b4, b5, b6⟩ := statusAt_justification E h.wb h.db ju
  have hck := checkDeal_same E (h.wa.verifiers.trans h.wb.verifiers.symm) h.sid ju.deal
  have hiff : statusAt a ju.index = some false ↔ statusAt b ju.index = some false := by
    cases hc : c ju.index with
    | none => rw [h.same _ hc]
    | some s =>
      obtain ⟨h1, h2⟩ := h.open_ _ s hc
      have hs : s = true := by
        cases s with
        | true => rfl
        | false => exact absurd hc hj
      subst hs
      constructor
      · intro h'; rcases h1 with h1 | h1 <;> rw [h1] at h' <;> cases h'
      · intro h'; rcases h2 with h2 | h2 <;> rw [h2] at h' <;> cases h'
  refine ⟨a1, b1, by rw [a2, b2, h.t], by rw [a3, b3, h.sid], ?_, by rw [a4]; exact h.da,
    by rw [b4]; exact h.db, fun l hl => ?_, fun l s hl => ?_⟩
  · rw [Bool.eq_iff_iff, a5, b5, h.bad, hck, hiff]
  · rw [a6, b6, hck, h.same l hl]
  · obtain ⟨h1, h2⟩ := h.open_ l s hl
    rw [a6, b6]
    have hno : ∀ x : Option Bool, (x = none ∨ x = some s) → l = ju.index → x ≠ some false := by
      rintro x (rfl | rfl) rfl
      · simp
      · rw [← hl]; exact hj
    constructor
    · rw [if_neg (fun h' => hno _ h1 h'.1 h'.2.1)]; exact h1
    · rw [if_neg (fun h' => hno _ h2 h'.1 h'.2.1)]; exact h2

theorem Like.timeout (h : Like pubs (fun _ => none) a b) :
    Like pubs (fun _ => none) a.cleanVerifiers b.cleanVerifiers := by
  have hw : ∀ {a : Aggregator F G}, Wf pubs a → Wf pubs a.cleanVerifiers := by
    intro a h
    refine ⟨h.verifiers, nodup_cleanFold _ _ _ h.nodup, fun i r hr => ?_⟩
    rw [cleanVerifiers_get] at hr
    cases hi : a.responses.get i with
    | some r' => rw [hi] at hr; cases hr; exact h.index i _ hi
    | none =>
      rw [hi] at hr
      simp only at hr
      split at hr
      · rename_i hl; cases hr; exact ⟨rfl, h.verifiers ▸ hl⟩
      · cases hr
  have hst : ∀ {a : Aggregator F G}, Wf pubs a → ∀ l, statusAt a.cleanVerifiers l =
      match statusAt a l with
      | some s => some s
      | none => if l < pubs.length then some false else none := by
    intro a h l
    unfold statusAt
    rw [cleanVerifiers_get, h.verifiers]
    cases a.responses.get l with
    | some r => rfl
    | none => simp only [Option.map_none]; split <;> rfl
  refine ⟨hw h.wa, hw h.wb, h.t, h.sid, h.bad, h.da, h.db, fun l hl => ?_, fun l s hl => by cases hl⟩
  rw [hst h.wa, hst h.wb, h.same l hl]

/-- Two participants that hold the same count the same. -/
theorem Like.certified (h : Like pubs (fun _ => none) a b) : a.dealCertified = b.dealCertified := by
  have hst : ∀ l, statusAt a l = statusAt b l := fun l => h.same l rfl
  have hm : missing a.responses pubs.length = missing b.responses pubs.length := by
    unfold missing
    refine Finset.filter_congr fun l _ => ?_
    have := hst l
    unfold statusAt at this
    cases h1 : a.responses.get l <;> cases h2 : b.responses.get l <;> rw [h1, h2] at this <;> simp_all
  have ha : approvedBy a.responses pubs.length = approvedBy b.responses pubs.length := by
    unfold approvedBy
    refine Finset.filter_congr fun l _ => ?_
    have := hst l
    unfold statusAt at this
    cases h1 : a.responses.get l <;> cases h2 : b.responses.get l <;> rw [h1, h2] at this <;> simp_all
  rw [Bool.eq_iff_iff, certified_iff h.wa, certified_iff h.wb, h.bad, hm, ha, h.t]

/-! ### The participant -/

/-- The effect of a message on the answers about a dealer. -/
def aStep (E : Env F G) (a : Aggregator F G) : About (VssR.Justification F G) → Aggregator F G
  | .response r => (a.verifyResponse E.suite r).1
  | .justification ju => (a.verifyJustification E ju).1
  | .timeout => a.cleanVerifiers

theorem aStep_deal (E : Env F G) {a : Aggregator F G} (hd : a.deal.isSome)
    (m : About (VssR.Justification F G)) : (aStep E a m).deal.isSome := by
  cases m with
  | response r => show (a.verifyResponse E.suite r).1.deal.isSome; rw [(fields_response E.suite a r).2.2.2]; exact hd
  | justification ju =>
    show (a.verifyJustification E ju).1.deal.isSome
    rcases verifyJustification_cases E a ju with
      ⟨e, h'⟩ | ⟨r, hl, hr, hs, ⟨-, h'⟩ | ⟨e, hc, h'⟩ | ⟨-, h'⟩⟩ <;> rw [h']
    · exact hd
    all_goals simp only [remember_some hd]; exact hd
  | timeout => exact hd

/-- What a participant holds about another dealer changes only by what it hears about it. -/
theorem step_about (E : Env F G) {d : Dkg F G} {j : Nat} (hne : j ≠ d.index) {v : Verifier F G}
    (hv : d.verifiers.get j = some v) {a : Aggregator F G} (ha : v.aggregator = some a)
    (hd : a.deal.isSome) (c : QCall F G) :
    ∃ w, (qStep E d c).verifiers.get j = some w ∧ w.aggregator = some
      (match aboutR j c with
      | some m => aStep E a m
      | none => a) := by
  have hset : ∀ (m : AMap (Verifier F G)) (l : Nat) (w : Verifier F G), l ≠ j →
      m.get j = some v → (m.insert l w).get j = some v := by
    intro m l w hl hm
    rw [AMap.get_insert, if_neg (fun h => hl h.symm)]; exact hm
  have hpd : ∀ (d' : Dkg F G), d'.verifiers.get j = some v → ∀ dd k,
      (d'.processDeal E dd k).1.verifiers.get j = some v := by
    intro d' hv' dd k
    rcases processDeal_cases E d' dd k with (⟨e, h'⟩ | h') | ⟨_, _, _, _, -, hn, -, -, h'⟩ <;> rw [h']
    · exact hv'
    · exact hv'
    · exact hset _ _ _ (by rintro rfl; rw [hn] at hv'; cases hv') hv'
  cases c with
  | deals dh k vk =>
    refine ⟨v, ?_, ha⟩
    show (d.deals E dh k vk).1.verifiers.get j = some v
    unfold Dkg.deals
    split
    · exact hv
    · exact hv
    · exact dealsLoop_inv E (fun d' => d'.verifiers.get j = some v) _ _
        (fun d' e h' _ => hpd d' h' _ _) (fun d' h' => h') _ _ _ hv
  | deal dd k => exact ⟨v, hpd d hv dd k, ha⟩
  | response r k =>
    rcases processResponse_get E d r k hv with ⟨hr, h'⟩ | ⟨hr, h' | ⟨ju, hj, -, -⟩⟩
    · exact ⟨v, h', by simp only [aboutR, if_neg hr]; exact ha⟩
    · refine ⟨_, h', ?_⟩
      simp only [aboutR, if_pos hr, rStep, Verifier.processResponse, ha, aStep]
    · exact absurd hj hne
  | justification ju =>
    by_cases hj : ju.index = j
    · refine ⟨rStep E v (.justification ju.justification), ?_, ?_⟩
      · show (d.processJustification E ju).1.verifiers.get j = _
        unfold Dkg.processJustification
        rw [hj, hv]
        simp [AMap.get_insert, rStep]
      · simp only [aboutR, if_pos hj, rStep, Verifier.processJustification, ha, aStep]
    · refine ⟨v, ?_, by simp only [aboutR, if_neg hj]; exact ha⟩
      show (d.processJustification E ju).1.verifiers.get j = _
      unfold Dkg.processJustification
      split
      · exact hv
      · exact hset _ _ _ hj hv
  | timeout =>
    refine ⟨v.setTimeout, ?_, ?_⟩
    · show AMap.get (d.verifiers.map _) j = _
      rw [get_map, hv]; rfl
    · simp [Verifier.setTimeout, ha, aboutR, aStep]
  | ownCommits k =>
    refine ⟨v, ?_, ha⟩
    show (d.secretCommits E.suite k).1.verifiers.get j = _
    unfold Dkg.secretCommits
    split
    · exact hv
    · split <;> exact hv
  | commits ord sc k =>
    refine ⟨v, ?_, ha⟩
    show (d.processSecretCommits E ord sc k).1.verifiers.get j = _
    rcases processSecretCommits_cases E ord d sc k with ⟨h', -⟩ | ⟨_, _, _, -, -, -, -, -, -, -, h'⟩ <;>
      rw [h'] <;> exact hv
  | complaint ord cc k =>
    have hac : ∀ u, d.verifiers.get cc.dealerIndex = some u → (afterCheck E d cc u).verifiers.get j = some v := by
      intro u hu
      show (d.verifiers.insert cc.dealerIndex _).get j = _
      rw [AMap.get_insert]
      split
      · rename_i hj
        subst hj
        rw [hv] at hu
        cases hu
        have hvd : v.onAggregator (fun a => (a.verifyDeal E cc.deal false).1) = v := by
          unfold Verifier.onAggregator
          obtain ⟨v1, v2, v3, v4, v5, v6, v7⟩ := v
          simp only at ha
          subst ha
          have : (a.verifyDeal E cc.deal false).1 = a := by
            unfold Aggregator.verifyDeal
            simp [remember_some hd]
          simp [this]
        show some (v.onAggregator (fun a => (a.verifyDeal E cc.deal false).1)) = _
        rw [hvd]
      · exact hv
    refine ⟨v, ?_, ha⟩
    show (d.processComplaintCommits E ord cc k).1.verifiers.get j = _
    rcases processComplaintCommits_cases E ord d cc k with ⟨h' | ⟨u, hu, h'⟩, -⟩ |
      ⟨_, u, _, _, _, -, -, -, hu, -, -, -, -, -, rc, -, -, -, -, -, h'⟩ <;> rw [h']
    · exact hv
    · exact hac u hu
    · exact hac u hu
  | reconstruct ord rc =>
    refine ⟨v, ?_, ha⟩
    show (d.processReconstructCommits E ord rc).1.verifiers.get j = _
    rcases processReconstructCommits_cases E ord d rc with (h' | ⟨arr, h', -⟩) |
      ⟨_, _, _, -, -, -, -, -, -, -, -, h'⟩ <;> rw [h'] <;> exact hv

theorem run_about (E : Env F G) {d : Dkg F G} {j : Nat} (hne : j ≠ d.index) {v : Verifier F G}
    (hv : d.verifiers.get j = some v) {a : Aggregator F G} (ha : v.aggregator = some a)
    (hd : a.deal.isSome) (cs : List (QCall F G)) :
    ∃ w, (qRun E d cs).verifiers.get j = some w ∧
      w.aggregator = some ((cs.filterMap (aboutR j)).foldl (aStep E) a) := by
  induction cs generalizing d v a with
  | nil => exact ⟨v, hv, ha⟩
  | cons c cs ih =>
    obtain ⟨w, h1, h2⟩ := step_about E hne hv ha hd c
    have hi : j ≠ (qStep E d c).index := by rw [(qStep_evolves E d c).index]; exact hne
    cases hc : aboutR j c with
    | none =>
      rw [hc] at h2
      obtain ⟨w', g1, g2⟩ := ih hi h1 h2 hd
      refine ⟨w', g1, ?_⟩
      rw [List.filterMap_cons_none hc]; exact g2
    | some m =>
      rw [hc] at h2
      obtain ⟨w', g1, g2⟩ := ih hi h1 h2 (aStep_deal E hd m)
      refine ⟨w', g1, ?_⟩
      rw [List.filterMap_cons_some hc]; exact g2

/-- A deal just stored: the only answers are those of the participant and of the dealer. -/
theorem firstAnswers {E : Env F G} {d : Dkg F G} {dd : Deal G} {k : F} {resp : Response}
    (hi : d.participants.findIdx? (fun p => decide (p = d.long • E.suite.base)) = some d.index)
    (hne : dd.index ≠ d.index) (h : (d.processDeal E dd k).2 = .ok resp) :
    resp.index = dd.index ∧ resp.response.index = d.index ∧
    ∃ v a q, (d.processDeal E dd k).1.verifiers.get dd.index = some v ∧ v.aggregator = some a ∧
      a.deal = some q ∧ a.t = q.t ∧ a.sid = q.sessionId ∧ a.badDealer = false ∧
      Wf d.participants a ∧
      ∀ l, statusAt a l = if l = d.index then some resp.response.status
        else if l = dd.index then some true else none := by
  rcases processDeal_cases E d dd k with (⟨e, h'⟩ | h') | ⟨pub, v0, v1, rs, hp, hn, hv0, hv1, h'⟩
  · rw [h'] at h; cases h
  · rw [h'] at h; cases h
  rw [h'] at h ⊢
  simp only [Res.ok.injEq] at h
  subst h
  obtain ⟨f1, f2, -, -, f5, -⟩ := newVerifier_fields hv0
  have hvi := newVerifier_index hv0 hi
  rcases processEncryptedDeal_cases E v0 dd.deal k with (⟨_, h⟩ | h) | ⟨q, hq, -, hn, ⟨-, h⟩ | ⟨st, hst, h1, h2⟩⟩
  · rw [h] at hv1; cases hv1
  · rw [h] at hv1; cases hv1
  · rw [h] at hv1; cases hv1
  rw [hv1] at h1 h2
  simp only at h1 h2
  have hag : v0.aggregatorFor q = newAggregator d.participants q.commitments q.t q.sessionId := by
    unfold Verifier.aggregatorFor; rw [f1, f2]; rfl
  rw [hag] at h1 h2
  have hrem : (newAggregator d.participants q.commitments q.t q.sessionId).remember q =
      { (newAggregator d.participants q.commitments q.t q.sessionId : Aggregator F G) with
        deal := some q } := rfl
  rw [hrem] at h1 h2
  set b := ({ (newAggregator d.participants q.commitments q.t q.sessionId : Aggregator F G) with
    deal := some q }) with hb
  rw [hvi] at f5
  have hj : dd.index < d.participants.length := (List.getElem?_eq_some_iff.1 hp).1
  let m1 : AMap VssP.Response := AMap.insert [] d.index (mkReply E v0 q k st)
  let m2 : AMap VssP.Response := m1.insert dd.index ⟨b.sid, dd.index, true, []⟩
  have hidx : (mkReply E v0 q k st).index = d.index := hvi
  have hadd : b.addResponse (mkReply E v0 q k st) = ({ b with responses := m1 }, .ok ()) := by
    unfold Aggregator.addResponse
    rw [hidx]
    have : (findPub b.verifiers d.index).isNone = false := by
      show (d.participants[d.index]?).isNone = false
      rw [List.getElem?_eq_getElem f5]; rfl
    rw [if_neg (by rw [this]; simp)]
    have : (b.responses.get d.index).isSome = false := rfl
    rw [if_neg (by rw [this]; simp)]
    rfl
  rw [hadd] at h1 h2
  have hrs : rs = mkReply E v0 q k st := by
    change Res.ok rs = Res.ok _ at h2
    cases h2; rfl
  subst hrs h1
  have hadd2 : ({ b with responses := m1 } : Aggregator F G).unsafeSetResponseDkg
      dd.index true = { b with responses := m2 } := by
    unfold Aggregator.unsafeSetResponseDkg Aggregator.addResponse
    have : (findPub b.verifiers dd.index).isNone = false := by
      show (d.participants[dd.index]?).isNone = false
      rw [List.getElem?_eq_getElem hj]; rfl
    rw [if_neg (by simp only [this]; simp)]
    rw [if_neg (by
      show ¬ (m1.get dd.index).isSome = true
      rw [AMap.get_insert, if_neg hne]; simp [AMap.get])]
  have hget : ∀ l, m2.get l = if l = dd.index then some ⟨b.sid, dd.index, true, []⟩ else
      if l = d.index then some (mkReply E v0 q k st) else none := by
    intro l
    rw [AMap.get_insert, AMap.get_insert]; rfl
  refine ⟨rfl, hvi, rStep E { v0 with aggregator := some { b with responses := m1 } }
      (.unsafeSet dd.index true), { b with responses := m2 }, q, ?_, ?_, rfl, rfl, rfl, rfl, ?_, ?_⟩
  · show (d.verifiers.insert dd.index _).get dd.index = _
    rw [AMap.get_insert, if_pos rfl]
  · exact congrArg some hadd2
  · refine ⟨rfl, AMap.nodup_insert (m := m1) (AMap.nodup_insert (m := []) List.nodup_nil _ _) _ _, fun i r hr => ?_⟩
    change m2.get i = _ at hr
    rw [hget] at hr
    split at hr
    · rename_i hi'; cases hr; subst hi'; exact ⟨rfl, hj⟩
    · split at hr
      · rename_i hi'; cases hr; subst hi'; exact ⟨hidx, f5⟩
      · cases hr
  · intro l
    show (m2.get l).map _ = _
    rw [hget]
    by_cases h1 : l = dd.index
    · subst h1; rw [if_pos rfl, if_neg hne, if_pos rfl]; rfl
    · rw [if_neg h1, if_neg h1]
      split <;> rfl

/-- Phase one: not all answers that are open have arrived at both. -/
theorem Like.run {E : Env F G} (h : Like pubs c a b) (B : List (About (VssR.Justification F G)))
    (hT : .timeout ∉ B)
    (hr : ∀ r s, .response r ∈ B → c r.index = some s → r.sessionId = a.sid →
      Authentic E.suite pubs r → r.status = s)
    (hju : ∀ ju, .justification ju ∈ B → c ju.index ≠ some false) :
    Like pubs c (B.foldl (aStep E) a) (B.foldl (aStep E) b) := by
  induction B generalizing a b with
  | nil => exact h
  | cons m B ih =>
    have hB : ∀ m', m' ∈ B → m' ∈ m :: B := fun m' h => List.mem_cons_of_mem m h
    cases m with
    | response r =>
      refine ih (h.response E.suite r (fun s h1 h2 h3 => hr r s (by simp) h1 h2 h3)) (fun h => hT (hB _ h))
        (fun r' s h1 h2 h3 h4 => hr r' s (hB _ h1) h2 ?_ h4) (fun ju h => hju ju (hB _ h))
      exact h3.trans (fields_response E.suite a r).2.1
    | justification ju =>
      refine ih (h.justification E ju (hju ju (by simp))) (fun h => hT (hB _ h))
        (fun r' s h1 h2 h3 h4 => hr r' s (hB _ h1) h2 ?_ h4) (fun ju h => hju ju (hB _ h))
      obtain ⟨-, -, h', -⟩ := statusAt_justification E h.wa h.da ju
      exact h3.trans h'
    | timeout => exact absurd (by simp) hT

/-- Phase two: nothing is open. -/
theorem Like.run_closed {E : Env F G} (h : Like pubs (fun _ => none) a b)
    (B : List (About (VssR.Justification F G))) :
    Like pubs (fun _ => none) (B.foldl (aStep E) a) (B.foldl (aStep E) b) := by
  induction B generalizing a b with
  | nil => exact h
  | cons m B ih =>
    cases m with
    | response r => exact ih (h.response E.suite r (fun s h => by cases h))
    | justification ju => exact ih (h.justification E ju (by simp))
    | timeout => exact ih h.timeout

/-- An answer that has arrived stays. -/
theorem statusAt_isSome {E : Env F G} (h : Wf pubs a) (hd : a.deal.isSome)
    (B : List (About (VssR.Justification F G))) (hT : .timeout ∉ B) {l : Nat}
    (hl : (statusAt a l).isSome ∨ ∃ r, .response r ∈ B ∧ r.index = l ∧ r.sessionId = a.sid ∧
      Authentic E.suite pubs r) :
    (statusAt (B.foldl (aStep E) a) l).isSome := by
  induction B generalizing a with
  | nil =>
    rcases hl with hl | ⟨r, hr, -⟩
    · exact hl
    · cases hr
  | cons m B ih =>
    have hB : ∀ m', m' ∈ B → m' ∈ m :: B := fun m' h => List.mem_cons_of_mem m h
    cases m with
    | response r =>
      refine ih (wf_response E.suite h r) (aStep_deal E hd _) (fun h => hT (hB _ h)) ?_
      show (statusAt (a.verifyResponse E.suite r).1 l).isSome ∨ ∃ r', _ ∧ _ ∧
        _ = (a.verifyResponse E.suite r).1.sid ∧ _
      rw [(fields_response E.suite a r).2.1]
      rcases hl with hl | ⟨r', hr', h1, h2, h3⟩
      · left
        rw [statusAt_response E.suite h]
        split
        · rfl
        · exact hl
      · rcases List.mem_cons.1 hr' with he | he
        · cases he
          left
          rw [statusAt_response E.suite h]
          by_cases hn : statusAt a l = none
          · rw [if_pos ⟨h1.symm, h2, h3, hn⟩]; rfl
          · split
            · rfl
            · exact Option.isSome_iff_ne_none.2 hn
        · exact Or.inr ⟨r', he, h1, h2, h3⟩
    | justification ju =>
      obtain ⟨h1, -, h3, h4, -, h6⟩ := statusAt_justification E h hd ju
      refine ih h1 (aStep_deal E hd _) (fun h => hT (hB _ h)) ?_
      show (statusAt (a.verifyJustification E ju).1 l).isSome ∨ ∃ r', _ ∧ _ ∧
        _ = (a.verifyJustification E ju).1.sid ∧ _
      rw [h3, h6]
      rcases hl with hl | ⟨r', hr', h1, h2, h3⟩
      · left
        split
        · rfl
        · exact hl
      · rcases List.mem_cons.1 hr' with he | he
        · cases he
        · exact Or.inr ⟨r', he, h1, h2, h3⟩
    | timeout => exact absurd (by simp) hT

end Kyber.DkgR
