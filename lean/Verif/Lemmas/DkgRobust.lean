/-
The verifier of one honest dealer at a participant of the Pedersen DKG, under arbitrary messages.
-/
import Verif.Lemmas.DkgPedersenHonest
import Verif.Props.VssPedersen

set_option linter.unusedSectionVars false

namespace Kyber.DkgP

open Kyber.Poly Kyber.Spec Kyber.VssP

variable {F G : Type} [Field F] [AddCommGroup G] [SMul F G] [DecidableEq G]

/-! ### The verifier -/

/-- What is known about the verifier of dealer `j` (key `p`) at participant `i`: only approvals are
stored, and the deal, if there is one, is `pl`. -/
structure VR (S : Suite F G) (x : F) (pubs : List G) (i j : Nat) (p : G) (pl : VssP.Deal F G)
    (v : Verifier F G) : Prop where
  st : VSt S x pubs i p v
  ok : ∀ l r, v.aggregator.responses.get l = some r → r.status = true
  dl : (v.aggregator.deal = none ∧ v.aggregator.sid = [] ∧ v.aggregator.responses.get i = none) ∨
    (v.aggregator.deal = some pl ∧ v.aggregator.sid = pl.sessionId ∧ v.aggregator.t = pl.t ∧
      (v.aggregator.responses.get i).isSome ∧ (v.aggregator.responses.get j).isSome)

section

variable {S : Suite F G} {x : F} {pubs : List G} {i j : Nat} {p : G} {pl : VssP.Deal F G}
  {v : Verifier F G}

theorem VR.timeout (h : VR S x pubs i j p pl v) : VR S x pubs i j p pl v.setTimeout :=
  ⟨⟨h.st.longterm, h.st.dealer, h.st.index, h.st.verifiers, h.st.ctx, h.st.aggv, h.st.bad⟩, h.ok, h.dl⟩

theorem VR.justification (h : VR S x pubs i j p pl v) (ju : VssP.Justification F G) :
    (v.processJustification S ju).1 = v := by
  have : (v.aggregator.verifyJustification S ju).1 = v.aggregator := by
    unfold Aggregator.verifyJustification
    split
    · rfl
    · split
      · rfl
      · rename_i r hr
        rw [if_pos (by rw [h.ok _ _ hr]; decide)]
  unfold Verifier.processJustification
  simp only [this]

theorem VR.addResponse (h : VR S x pubs i j p pl v) (r : VssP.Response) (hr : r.status = true)
    (hi : r.index ≠ i ∨ v.aggregator.deal ≠ none) :
    VR S x pubs i j p pl { v with aggregator := (v.aggregator.addResponse r).1 } := by
  rcases addResponse_cases v.aggregator r with ⟨e, h'⟩ | ⟨hl, hn, h'⟩
  · rw [h']; exact h
  · rw [h']
    refine ⟨⟨h.st.longterm, h.st.dealer, h.st.index, h.st.verifiers, h.st.ctx, h.st.aggv, h.st.bad⟩, ?_, ?_⟩
    · intro l r' hg
      change (v.aggregator.responses.insert r.index r).get l = some r' at hg
      rw [AMap.get_insert] at hg
      split at hg
      · cases hg; exact hr
      · exact h.ok l r' hg
    · rcases h.dl with ⟨h1, h2, h3⟩ | ⟨h1, h2, h3, h4, h5⟩
      · refine Or.inl ⟨h1, h2, ?_⟩
        show (v.aggregator.responses.insert r.index r).get i = none
        rw [AMap.get_insert, if_neg]
        · exact h3
        · rintro rfl
          rcases hi with hi | hi
          · exact hi rfl
          · exact hi h1
      · refine Or.inr ⟨h1, h2, h3, ?_, ?_⟩
        · show ((v.aggregator.responses.insert r.index r).get i).isSome
          rw [AMap.get_insert]; split
          · rfl
          · exact h4
        · show ((v.aggregator.responses.insert r.index r).get j).isSome
          rw [AMap.get_insert]; split
          · rfl
          · exact h5

theorem VR.response (h : VR S x pubs i j p pl v) (r : VssP.Response)
    (hr : Authentic S pubs r → r.status = true ∧ r.index ≠ i) :
    VR S x pubs i j p pl (v.processResponse S r).1 := by
  unfold Verifier.processResponse
  rcases verifyResponse_cases S v.aggregator r with ⟨e, h'⟩ | h' | ⟨pub, -, h2, h3, h'⟩
  · simp only [h']; exact h
  · simp only [h']; exact h
  · obtain ⟨h4, h5⟩ := hr ⟨pub, by rw [← h.st.aggv]; exact h2, h3⟩
    simp only [h']
    exact h.addResponse r h4 (Or.inl h5)

/-- An authentic response to the right session is stored, if there is not one already. -/
theorem VR.response_stored (h : VR S x pubs i j p pl v) (r : VssP.Response)
    (hr : Authentic S pubs r) (hs : r.sessionId = pl.sessionId) :
    ((v.processResponse S r).1.aggregator.responses.get r.index).isSome := by
  obtain ⟨pub, h1, h2⟩ := hr
  rw [← h.st.aggv] at h1
  have hsid : v.aggregator.sid ≠ [] → r.sessionId = v.aggregator.sid := by
    intro hne
    rcases h.dl with ⟨-, h3, -⟩ | ⟨-, h3, -⟩
    · exact absurd h3 hne
    · rw [h3, hs]
  by_cases hn : v.aggregator.responses.get r.index = none
  · unfold Verifier.processResponse
    rw [verifyResponse_new_ok S v.aggregator r pub hsid h1 h2 hn]
    show ((v.aggregator.responses.insert r.index r).get r.index).isSome
    rw [AMap.get_insert, if_pos rfl]; rfl
  · obtain ⟨r', hr'⟩ := Option.ne_none_iff_exists'.1 hn
    have := (verifyResponse_ext S v.aggregator r).responses _ _ hr'
    show ((v.aggregator.verifyResponse S r).1.responses.get r.index).isSome
    rw [this]; rfl

end

/-- A message that decrypts to the honest deal or to nothing. -/
theorem VR.deal {E : Env F G} (hS : E.suite.Lawful) {xd secret : F} {pubs : List G} {T : Nat}
    {draws : List F} {dl : Dealer F G} (hd : newDealer E.suite xd secret pubs T draws = .ok dl)
    {i j : Nat} {x : F} (hi : pubs[i]? = some (x • E.suite.base))
    (hj : pubs[j]? = some (xd • E.suite.base)) {vk : F} {e : EncryptedDeal G}
    {v w : Verifier F G} {pl : VssP.Deal F G} {res : Res VssError VssP.Response}
    (h : VR E.suite x pubs i j (xd • E.suite.base) pl v) (hpl : dl.deals[i]? = some pl)
    (hdec : ∀ q, v.decryptDeal E e = .ok q → q = pl)
    (hw : v.processEncryptedDeal E e vk = (w, res)) :
    (w = v ∧ (∀ r, res ≠ .ok r) ∧ (v.decryptDeal E e = .ok pl → v.aggregator.deal = some pl)) ∨
    VR E.suite x pubs i j (xd • E.suite.base) pl (w.unsafeSetResponseDkg j true) ∧ (∃ r, res = .ok r) ∧
      (w.unsafeSetResponseDkg j true).aggregator.deal = some pl := by
  rcases processEncryptedDeal_cases E v e vk with hbad | ⟨d2, hd2, hi2, hn, -⟩
  · left
    have hno : ∀ r, (v.processEncryptedDeal E e vk).2 ≠ .ok r := by
      rcases hbad with ⟨err, hb⟩ | hb <;> rw [hb] <;> simp
    have hgot : v.decryptDeal E e = .ok pl → v.aggregator.deal = some pl := by
      intro hok
      rcases h.dl with ⟨h1, h2, h3⟩ | ⟨h1, -⟩
      · have hdyn : VDyn v none v.aggregator.responses.get := ⟨h1, h2, by simp, fun _ => rfl⟩
        obtain ⟨v', g1, -⟩ := step_deal_dec E hS hd hi h.st hdyn h3 hpl hok (vk := vk)
        exact absurd (by rw [g1]) (hno _)
      · exact h1
    rw [hw] at hno
    rcases hbad with ⟨err, hb⟩ | hb <;>
    · rw [hb] at hw
      cases hw
      exact ⟨rfl, hno, hgot⟩
  · right
    have : d2 = pl := hdec d2 hd2
    subst this
    rcases h.dl with ⟨h1, h2, h3⟩ | ⟨h1, -⟩
    swap
    · rw [hn] at h1; cases h1
    have hdyn : VDyn v none v.aggregator.responses.get := ⟨h1, h2, by simp, fun _ => rfl⟩
    obtain ⟨v', g1, g2, g3⟩ := step_deal_dec E hS hd hi h.st hdyn h3 hpl hd2 (vk := vk)
    rw [g1] at hw
    cases hw
    have hjl := (List.getElem?_eq_some_iff.1 hj).1
    obtain ⟨u1, u2⟩ := step_unsafe g2 g3 j true hjl
    refine ⟨⟨u1, ?_, Or.inr ⟨u2.deal, u2.sid, u2.t d2 rfl, ?_, ?_⟩⟩, ⟨_, rfl⟩, u2.deal⟩
    · intro l r hr
      rw [u2.resp] at hr
      have hup : ∀ r, Function.update v.aggregator.responses.get i
          (some (honestReply E x pubs i (xd • E.suite.base) d2 vk)) l = some r → r.status = true := by
        intro r hr
        rw [Function.update_apply] at hr
        split at hr
        · cases hr; rfl
        · exact h.ok l r hr
      split at hr
      · exact hup r hr
      · rw [Function.update_apply] at hr
        split at hr
        · cases hr; rfl
        · exact hup r hr
    · rw [u2.resp]
      split
      · rw [Function.update_self]; rfl
      · rw [Function.update_apply]
        split
        · rfl
        · rw [Function.update_self]; rfl
    · rw [u2.resp]
      split
      · assumption
      · rw [Function.update_self]; rfl

/-- Enough stored answers certify. -/
theorem VR.certified {S : Suite F G} {x : F} {pubs : List G} {i j : Nat} {p : G} {pl : VssP.Deal F G}
    {v : Verifier F G} (h : VR S x pubs i j p pl v) (hd : v.aggregator.deal ≠ none)
    (A : Finset Nat) (hA : ∀ l ∈ A, l < pubs.length ∧ (v.aggregator.responses.get l).isSome)
    (ht : pl.t ≤ A.card) (htime : v.aggregator.timeout = true ∨ A = Finset.range pubs.length) :
    v.aggregator.dealCertified = true := by
  rcases h.dl with ⟨h1, -⟩ | ⟨-, -, hvt, -⟩
  · exact absurd h1 hd
  rw [Props.C23_certified_iff, h.st.aggv, hvt]
  have hsub : A ⊆ approvedBy v.aggregator.responses pubs.length := by
    intro l hl
    obtain ⟨h1, h2⟩ := hA l hl
    obtain ⟨r, hr⟩ := Option.isSome_iff_exists.1 h2
    simp only [approvedBy, Finset.mem_filter, Finset.mem_range]
    exact ⟨h1, r, hr, h.ok l r hr⟩
  have hcard := Finset.card_le_card hsub
  have hc : complainedBy v.aggregator.responses pubs.length = ∅ := by
    rw [complainedBy, Finset.filter_eq_empty_iff]
    rintro l - ⟨r, hr, hf⟩
    rw [h.ok l r hr] at hf
    cases hf
  have hp := partition_card v.aggregator.responses pubs.length
  rw [hc, Finset.card_empty] at hp
  refine ⟨h.st.bad, by omega, hc, ?_⟩
  split
  · omega
  · rename_i hto
    rcases htime with h' | h'
    · exact absurd h' hto
    · rw [h', Finset.card_range] at hcard
      rw [← Finset.card_eq_zero]
      omega

/-! ### The participant -/

/-- `process_deal` of a fresh DKG, as seen by the verifier of dealer `j`. -/
theorem processDeal_ver {E : DkgEnv F G} {d : Dkg F G} (hre : d.isResharing = false)
    (hnd : d.c.newNodes.Nodup) {j : Nat} {v : Verifier F G} (hv : d.verifiers.get j = some v)
    (dd : Deal G) (k k' : F) :
    ((d.processDeal E dd k k').1.verifiers.get j = some v ∧
      (dd.index ≠ j ∨ ∀ r, (d.processDeal E dd k k').2 ≠ .ok r) ∧
      (dd.index ≠ j ∨ d.newPresent = false ∨ ∀ P, d.c.newNodes[j]? = some P →
        Schnorr.verify E.suite P (E.encDist dd.index dd.deal) dd.signature ≠ .ok ())) ∨
    dd.index = j ∧ ∃ P, d.c.newNodes[j]? = some P ∧
      Schnorr.verify E.suite P (E.encDist dd.index dd.deal) dd.signature = .ok () ∧
      ∃ w res, v.processEncryptedDeal E.toEnv dd.deal k = (w, res) ∧
        ((∀ r, res ≠ .ok r) ∧ (∀ r, (d.processDeal E dd k k').2 ≠ .ok r) ∧ (d.processDeal E dd k k').1.verifiers.get j = some w ∨
         (∃ r, res = .ok r) ∧ (d.processDeal E dd k k').1.verifiers.get j =
            some (w.unsafeSetResponseDkg j true)) := by
  unfold Dkg.processDeal
  split
  · rename_i hnp; exact Or.inl ⟨hv, Or.inr (by simp), Or.inr (Or.inl hnp)⟩
  rw [hre]
  simp only [Bool.false_eq_true, if_false, Bool.false_and, Bool.not_false, Bool.and_true]
  by_cases hj : dd.index = j
  swap
  · left
    refine ⟨?_, Or.inl hj, Or.inl hj⟩
    have hset : ∀ w, (d.setVerifier dd.index w).verifiers.get j = some v := by
      intro w
      show (d.verifiers.insert dd.index w).get j = _
      rw [AMap.get_insert, if_neg (fun h => hj h.symm)]; exact hv
    split
    · exact hv
    split
    · exact hv
    · exact hv
    split
    · exact hv
    split
    · exact hset _
    · exact hset _
    · exact hset _
  · have hset : ∀ w, (d.setVerifier dd.index w).verifiers.get j = some w := by
      intro w
      show (d.verifiers.insert dd.index w).get j = _
      rw [AMap.get_insert, if_pos hj.symm]
    rw [hj] at hset ⊢
    split
    · rename_i hnone
      exact Or.inl ⟨hv, Or.inr (by simp), Or.inr (Or.inr (by intro P hP; rw [hnone] at hP; cases hP))⟩
    rename_i P hP
    split
    · rename_i e he
      refine Or.inl ⟨hv, Or.inr (by simp), Or.inr (Or.inr ?_)⟩
      intro Q hQ; rw [hP] at hQ; cases hQ; rw [he]; simp
    · rename_i he
      refine Or.inl ⟨hv, Or.inr (by simp), Or.inr (Or.inr ?_)⟩
      intro Q hQ; rw [hP] at hQ; cases hQ; rw [he]; simp
    rename_i hver
    refine Or.inr ⟨rfl, P, hP, hver, ?_⟩
    rw [hv]
    simp only
    cases hpe : v.processEncryptedDeal E.toEnv dd.deal k with
    | mk w res =>
      refine ⟨w, res, rfl, ?_⟩
      cases res with
      | err e => exact Or.inl ⟨by simp, by simp, hset _⟩
      | panic => exact Or.inl ⟨by simp, by simp, hset _⟩
      | ok r =>
        refine Or.inr ⟨⟨r, rfl⟩, ?_⟩
        simp only [findPub_nodup hnd hP, if_true]
        exact hset _

/-- `process_response` of a fresh DKG, as seen by the verifier of dealer `j`. -/
theorem processResponse_ver {E : DkgEnv F G} {d : Dkg F G} (hre : d.isResharing = false)
    {j : Nat} {v : Verifier F G} (hv : d.verifiers.get j = some v) (r : Response) (k : F) :
    r.index ≠ j ∧ (d.processResponse E r k).1.verifiers.get j = some v ∨
    r.index = j ∧ ((d.processResponse E r k).1.verifiers.get j = some (v.processResponse E.suite r.response).1 ∨
      ∃ ju, (d.processResponse E r k).1.verifiers.get j =
        some ((v.processResponse E.suite r.response).1.processJustification E.suite ju).1) := by
  have hset : ∀ (d : Dkg F G) w, d.verifiers.get j = some v →
      (d.setVerifier r.index w).verifiers.get j = if r.index = j then some w else some v := by
    intro d w hv
    show (d.verifiers.insert r.index w).get j = _
    rw [AMap.get_insert]
    by_cases h : r.index = j
    · rw [if_pos h, if_pos h.symm]
    · rw [if_neg h, if_neg (fun h' => h h'.symm)]; exact hv
  unfold Dkg.processResponse
  rw [if_neg (by rw [hre]; simp)]
  by_cases hj : r.index = j
  · right
    refine ⟨hj, ?_⟩
    rw [hj, hv]
    simp only
    rw [hj] at hset
    simp only [if_true] at hset
    cases hp : v.processResponse E.suite r.response with
    | mk w res =>
      cases res with
      | err e => exact Or.inl (hset _ _ hv)
      | panic => exact Or.inl (hset _ _ hv)
      | ok u =>
        simp only
        split
        · exact Or.inl (hset _ _ hv)
        split
        · exact Or.inl (hset _ _ hv)
        · exact Or.inl (hset _ _ hv)
        · exact Or.inl (hset _ _ hv)
        · rename_i dl ju _
          right
          refine ⟨ju, ?_⟩
          have hset2 : ∀ u, (({ d.setVerifier j w with dealer := dl } : Dkg F G).setVerifier j u).verifiers.get j =
              some u := by
            intro u
            show ((d.verifiers.insert j w).insert j u).get j = _
            rw [AMap.get_insert, if_pos rfl]
          cases hq : w.processJustification E.suite ju with
          | mk u res =>
            cases res with
            | err e => exact hset2 _
            | panic => exact hset2 _
            | ok _ => exact hset2 _
  · left
    refine ⟨hj, ?_⟩
    split
    · exact hv
    rename_i v' hv'
    simp only [if_neg hj] at hset
    split
    · exact hset _ _ hv
    · exact hset _ _ hv
    rename_i w _
    simp only
    split
    · exact hset _ _ hv
    split
    · exact hset _ _ hv
    · exact hset _ _ hv
    · exact hset _ _ hv
    · split
      · exact hset _ _ (hset _ _ hv)
      · exact hset _ _ (hset _ _ hv)
      · exact hset _ _ (hset _ _ hv)

theorem mapM_getElem? {α β ε : Type} (f : α → Res ε β) (l : List α) (m : List β) (h : l.mapM f = .ok m)
    (i : Nat) (b : β) (hb : m[i]? = some b) : ∃ a, l[i]? = some a ∧ f a = .ok b := by
  induction l generalizing m i with
  | nil =>
    rw [List.mapM_nil] at h
    cases h
    simp at hb
  | cons a l ih =>
    rw [List.mapM_cons, Res.bind_eq_ok] at h
    obtain ⟨y, hy, h⟩ := h
    rw [Res.bind_eq_ok] at h
    obtain ⟨ys, hys, h⟩ := h
    cases h
    cases i with
    | zero =>
      simp only [List.getElem?_cons_zero, Option.some.injEq] at hb
      subst hb
      exact ⟨a, rfl, hy⟩
    | succ i =>
      simp only [List.getElem?_cons_succ] at hb ⊢
      exact ih ys hys i hb

/-- Once the own deal is processed `deals` changes nothing. -/
theorem dealsLoop_processed {E : DkgEnv F G} (encs : List (EncryptedDeal G)) (rnd : Nat → F) (vk vk' : F)
    (l : List Nat) (d : Dkg F G) (hp : d.processed = true) (dd : AMap (Deal G)) :
    (Dkg.dealsLoop E encs rnd vk vk' l d dd).1 = d := by
  induction l generalizing dd with
  | nil => rfl
  | cons a l ih =>
    unfold Dkg.dealsLoop
    split
    · rfl
    · simp only
      split
      · first | exact ih _ | (rw [if_pos hp]; exact ih _)
      · exact ih _

theorem processDeal_processed (E : DkgEnv F G) (d : Dkg F G) (dd : Deal G) (k k' : F) :
    (d.processDeal E dd k k').1.processed = d.processed := by
  unfold Dkg.processDeal
  split; · rfl
  split; · rfl
  split; · rfl
  · rfl
  split; · rfl
  split
  · rfl
  · rfl
  · simp only
    split
    · split
      · split
        · rfl
        · rfl
      · rfl
    · rfl

/-- The first successful call of `deals` processes the own deal. -/
theorem deals_first {E : DkgEnv F G} {d : Dkg F G} {dh k rnd : Nat → F} {vk vk' : F}
    {out : AMap (Deal G)} (hiss : d.canIssue = true) (hnew : d.newPresent = true) (hre : d.isResharing = false)
    (hp : d.processed = false) (hn : d.nidx < d.c.newNodes.length)
    (h : (d.deals E dh k rnd vk vk').2 = .ok out) :
    ∃ e r, d.dealer.encryptedDeal E.toEnv d.nidx (dh d.nidx) (k d.nidx) = .ok e ∧
      ({ d with processed := true } : Dkg F G).processDeal E (d.signDeal E e (rnd d.nidx)) vk vk' =
        ((d.deals E dh k rnd vk vk').1, .ok r) := by
  unfold Dkg.deals at h ⊢
  rw [if_neg (by rw [hiss]; simp)] at h ⊢
  split at h
  · cases h
  · cases h
  rename_i encs hencs
  have henc : ∀ e, encs[d.nidx]? = some e →
      d.dealer.encryptedDeal E.toEnv d.nidx (dh d.nidx) (k d.nidx) = .ok e := by
    intro e he
    obtain ⟨a, ha, hb⟩ := mapM_getElem? _ _ _ hencs _ _ he
    obtain ⟨h1, h2⟩ := List.getElem?_eq_some_iff.1 ha
    rw [List.getElem_range] at h2
    subst h2
    exact hb
  have key : ∀ (l : List Nat) (dd : AMap (Deal G)), d.nidx ∈ l →
      (Dkg.dealsLoop E encs rnd vk vk' l d dd).2 = .ok out →
      ∃ e r, encs[d.nidx]? = some e ∧
        ({ d with processed := true } : Dkg F G).processDeal E (d.signDeal E e (rnd d.nidx)) vk vk' =
          ((Dkg.dealsLoop E encs rnd vk vk' l d dd).1, .ok r) := by
    intro l
    induction l with
    | nil => intro dd hc; cases hc
    | cons a l ih =>
      intro dd hmem h
      unfold Dkg.dealsLoop at h ⊢
      split at h
      · cases h
      rename_i e he
      simp only [he]
      simp only at h
      by_cases ha : a = d.nidx
      · rw [if_pos ⟨ha, hnew, hre⟩, if_neg (by rw [hp]; simp)] at h ⊢
        subst ha
        have hproc := processDeal_processed E { d with processed := true } (d.signDeal E e (rnd d.nidx)) vk vk'
        cases hpd : ({ d with processed := true } : Dkg F G).processDeal E (d.signDeal E e (rnd d.nidx)) vk vk' with
        | mk d' res =>
          rw [hpd] at h hproc
          cases res with
          | err e => cases h
          | panic => cases h
          | ok r =>
            refine ⟨e, r, he, ?_⟩
            rw [hpd]
            simp only at h ⊢
            split at h
            · cases h
            · rename_i hst
              rw [if_neg hst, dealsLoop_processed encs rnd vk vk' l d' hproc]
      · rw [if_neg (fun hc => ha hc.1)] at h ⊢
        exact ih _ ((List.mem_cons.1 hmem).resolve_left (fun hc => ha hc.symm)) h
  obtain ⟨e, r, h1, h2⟩ := key _ _ (List.mem_range.2 hn) h
  exact ⟨e, r, henc e h1, h2⟩

/-- What every call preserves holds after `deals` if it holds after processing the own deal. -/
theorem deals_ind {E : DkgEnv F G} (P : Dkg F G → Prop) {d0 : Dkg F G} (dh k rnd : Nat → F) (vk vk' : F)
    (hproc : ∀ d, P d → P { d with processed := true })
    (hstep : ∀ d e, Evolves E d0 d → P d →
      d0.dealer.encryptedDeal E.toEnv d0.nidx (dh d0.nidx) (k d0.nidx) = .ok e →
      P (d.processDeal E (d.signDeal E e (rnd d0.nidx)) vk vk').1)
    (d : Dkg F G) (hd : Evolves E d0 d) (h : P d) : P (d.deals E dh k rnd vk vk').1 := by
  unfold Dkg.deals
  split
  · exact h
  split
  · exact h
  · exact h
  · rename_i encs hencs
    have henc : ∀ e, encs[d0.nidx]? = some e →
        d0.dealer.encryptedDeal E.toEnv d0.nidx (dh d0.nidx) (k d0.nidx) = .ok e := by
      intro e he
      obtain ⟨a, ha, hb⟩ := mapM_getElem? _ _ _ hencs _ _ he
      obtain ⟨h1, h2⟩ := List.getElem?_eq_some_iff.1 ha
      rw [List.getElem_range] at h2
      subst h2
      rw [← hb, ← hd.dealer]
      rfl
    clear hencs
    have key : ∀ (l : List Nat) (d : Dkg F G) (dd : AMap (Deal G)), Evolves E d0 d → P d →
        P (Dkg.dealsLoop E encs rnd vk vk' l d dd).1 := by
      intro l
      induction l with
      | nil => intro d dd _ h; exact h
      | cons a l ih =>
        intro d dd hd h
        unfold Dkg.dealsLoop
        split
        · exact h
        rename_i e he
        simp only
        split
        · rename_i hc
          have ha : a = d0.nidx := by rw [hc.1, hd.nidx]
          split
          · exact ih _ _ hd h
          · have h1 := hstep { d with processed := true } e (hd.trans (processed_evolves E d true))
              (hproc d h) (henc e (by rw [← ha]; exact he))
            have h2 := processDeal_evolves E { d with processed := true } (d.signDeal E e (rnd a)) vk vk'
            rw [← ha] at h1
            change P (({ d with processed := true } : Dkg F G).processDeal E (d.signDeal E e (rnd a)) vk vk').1 at h1
            split
            · rename_i d' r hd'
              rw [hd'] at h1 h2
              split
              · exact h1
              · exact ih _ _ (hd.trans ((processed_evolves E d true).trans h2)) h1
            · rename_i d' r hd'
              rw [hd'] at h1; exact h1
            · rename_i d' hd'
              rw [hd'] at h1; exact h1
        · exact ih _ _ hd h
    exact key _ d _ hd h

/-! ### A history of calls -/

/-- What `new_dist_key_generator` returns. -/
structure FreshDkg (S : Suite F G) (x : F) (ps : List G) (t : Nat) (secret : F) (draws : List F)
    (d : Dkg F G) : Prop where
  new : d.newPresent = true
  re : d.isResharing = false
  issue : d.canIssue = true
  key : ps[d.nidx]? = some (x • S.base)
  oidx : d.oidx = d.nidx
  nodes : d.c.newNodes = ps
  longterm : d.c.longterm = x
  dealer : newDealer S x secret ps d.newT draws = .ok d.dealer
  processed : d.processed = false
  vers : ps.Nodup → ∀ j p, ps[j]? = some p → d.verifiers.get j = some (startVer S x ps t d.nidx p)

theorem newDistKeyGenerator_fresh {S : Suite F G} {x : F} {ps : List G} {t : Nat} {secret : F}
    {draws : List F} {d : Dkg F G} (h : newDistKeyGenerator S x ps t secret draws = .ok d) :
    FreshDkg S x ps t secret draws d := by
  have hst := newDistKeyHandler_ok h
  have hp : (findPub ps (x • S.base)).2 = true := by
    unfold newDistKeyGenerator newDistKeyHandler at h
    rw [Res.ite_err_eq_ok] at h
    simp only at h
    rw [Res.ite_err_eq_ok, Res.ite_err_eq_ok, Res.ite_err_eq_ok] at h
    obtain ⟨-, -, -, h, -⟩ := h
    by_contra hc
    rw [Bool.not_eq_true] at hc
    exact h ⟨rfl, hc⟩
  have hpr : d.newPresent = true := by
    have := hst.nidx
    rw [← hp, this]
  have hre : d.isResharing = false := hst.resharing
  obtain ⟨ho, hiss, hdl⟩ := hst.fresh hre hpr
  have hn : findPub ps (x • S.base) = (d.nidx, true) := by
    have := hst.nidx; rw [hpr] at this; exact this
  refine ⟨hpr, hre, hiss, (findPub_some hn).1, ?_, hst.newNodes, hst.longterm, hdl, hst.start.2.1, ?_⟩
  · have := hst.oidx
    rw [ho] at this
    simp only at this
    rw [hn] at this
    exact (Prod.mk.inj this).1.symm
  · intro hnd j p hj
    rw [hst.verifiers, if_pos ⟨hpr, by rw [ho]; exact hnd⟩, startVers_get, ho]
    simp only
    rw [hj, hst.longterm, hst.newNodes, hst.threshold]
    rfl

section

variable {E : DkgEnv F G} {x : F} {ps : List G} {t : Nat} {secret : F} {draws : List F} {d0 : Dkg F G}
  {xd sd : F} {T : Nat} {dr : List F} {dl : Dealer F G} {j : Nat} {pl : VssP.Deal F G}

/-- A call that does no harm to dealer `j`. -/
def Fine (E : DkgEnv F G) (x : F) (ps : List G) (d0 : Dkg F G) (j : Nat) (p : G) (pl : VssP.Deal F G) :
    DCall F G → Prop
  | .deals dh k _ _ _ => j = d0.nidx → ∀ e,
      d0.dealer.encryptedDeal E.toEnv d0.nidx (dh d0.nidx) (k d0.nidx) = .ok e →
      ∀ q, (startVer E.suite x ps 0 d0.nidx p).decryptDeal E.toEnv e = .ok q → q = pl
  | .deal dd _ _ => dd.index = j →
      Schnorr.verify E.suite p (E.encDist j dd.deal) dd.signature = .ok () →
      ∀ q, (startVer E.suite x ps 0 d0.nidx p).decryptDeal E.toEnv dd.deal = .ok q → q = pl
  | .response r _ => r.index = j → Authentic E.suite ps r.response →
      r.response.status = true ∧ r.response.index ≠ d0.nidx
  | _ => True

theorem decrypt_startVer {S : Suite F G} {p : G} {i : Nat} {v : Verifier F G}
    (h : VSt S x ps i p v) (E : Env F G) (hE : E.suite = S) (e : EncryptedDeal G) :
    v.decryptDeal E e = (startVer S x ps 0 i p).decryptDeal E e := by
  unfold Verifier.decryptDeal
  rw [h.longterm, h.dealer, h.ctx]
  rfl

variable (hS : E.suite.Lawful) (hnd : ps.Nodup) (h0 : newDistKeyGenerator E.suite x ps t secret draws = .ok d0)
  (hdl : newDealer E.suite xd sd ps T dr = .ok dl) (hj : ps[j]? = some (xd • E.suite.base))
  (hpl : dl.deals[d0.nidx]? = some pl)

include hS hnd h0 hdl hj hpl

/-- The state of the verifier of dealer `j` at the participant. -/
theorem processDeal_VR {d : Dkg F G} (hev : Evolves E d0 d) {v : Verifier F G}
    (hv : d.verifiers.get j = some v)
    (hvr : VR E.suite x ps d0.nidx j (xd • E.suite.base) pl v) (dd : Deal G) (k k' : F)
    (hdec : dd.index = j →
      Schnorr.verify E.suite (xd • E.suite.base) (E.encDist j dd.deal) dd.signature = .ok () →
      ∀ q, (startVer E.suite x ps 0 d0.nidx (xd • E.suite.base)).decryptDeal E.toEnv dd.deal = .ok q → q = pl) :
    ∃ v', (d.processDeal E dd k k').1.verifiers.get j = some v' ∧
      VR E.suite x ps d0.nidx j (xd • E.suite.base) pl v' ∧
      (dd.index = j → (∃ r, (d.processDeal E dd k k').2 = .ok r) → v'.aggregator.deal = some pl) ∧
      (dd.index = j →
        Schnorr.verify E.suite (xd • E.suite.base) (E.encDist j dd.deal) dd.signature = .ok () →
        (startVer E.suite x ps 0 d0.nidx (xd • E.suite.base)).decryptDeal E.toEnv dd.deal = .ok pl →
        v'.aggregator.deal = some pl) := by
  have hf := newDistKeyGenerator_fresh h0
  have hre : d.isResharing = false := hev.isResharing.trans hf.re
  have hnn : d.c.newNodes = ps := by rw [hev.c]; exact hf.nodes
  have hnew : d.newPresent = true := hev.newPresent.trans hf.new
  rcases processDeal_ver (E := E) hre (by rw [hnn]; exact hnd) hv dd k k' with
    ⟨h1, h2, h3⟩ | ⟨h1, P, hP, hver, w, res, hw, hcase⟩
  · refine ⟨v, h1, hvr, ?_, ?_⟩
    · rintro hjj ⟨r, hr⟩
      rcases h2 with h2 | h2
      · exact absurd hjj h2
      · exact absurd hr (h2 r)
    · intro hjj hok _
      rcases h3 with h3 | h3 | h3
      · exact absurd hjj h3
      · rw [hnew] at h3; cases h3
      · exact absurd (by rw [hjj]; exact hok) (h3 _ (by rw [hnn]; exact hj))
  · rw [hnn, hj] at hP
    cases hP
    rw [h1] at hver
    have hd := hdec h1 hver
    have hdecv : ∀ e, v.decryptDeal E.toEnv e =
        (startVer E.suite x ps 0 d0.nidx (xd • E.suite.base)).decryptDeal E.toEnv e :=
      fun e => decrypt_startVer hvr.st E.toEnv rfl e
    rcases hvr.deal hS hdl hf.key hj hpl (by intro q hq; exact hd q (by rw [← hdecv]; exact hq)) hw with
      ⟨rfl, g1, g2⟩ | ⟨g1, ⟨r, g2⟩, g3⟩
    · rcases hcase with ⟨-, c2, c3⟩ | ⟨⟨r, c1⟩, -⟩
      · refine ⟨w, c3, hvr, ?_, ?_⟩
        · rintro - ⟨r, hr⟩; exact absurd hr (c2 r)
        · intro _ _ hok; exact g2 (by rw [hdecv]; exact hok)
      · exact absurd c1 (g1 r)
    · rcases hcase with ⟨c1, -⟩ | ⟨-, c2⟩
      · exact absurd g2 (c1 r)
      · exact ⟨_, c2, g1, fun _ _ => g3, fun _ _ _ => g3⟩

theorem step_VR {d : Dkg F G} (hev : Evolves E d0 d)
    (h : ∃ v, d.verifiers.get j = some v ∧ VR E.suite x ps d0.nidx j (xd • E.suite.base) pl v)
    (c : DCall F G) (hc : Fine E x ps d0 j (xd • E.suite.base) pl c) :
    ∃ v, (dStep E d c).verifiers.get j = some v ∧ VR E.suite x ps d0.nidx j (xd • E.suite.base) pl v := by
  have hf := newDistKeyGenerator_fresh h0
  obtain ⟨v, hv, hvr⟩ := h
  cases c with
  | deals dh k rnd vk vk' =>
    refine deals_ind (E := E) (d0 := d0) (fun d => ∃ v, d.verifiers.get j = some v ∧
      VR E.suite x ps d0.nidx j (xd • E.suite.base) pl v) dh k rnd vk vk' (fun d h => h) ?_ d hev ⟨v, hv, hvr⟩
    rintro d' e hev' ⟨v', hv', hvr'⟩ he
    obtain ⟨u, hu, hur, -⟩ := processDeal_VR hS hnd h0 hdl hj hpl hev' hv' hvr'
      (d'.signDeal E e (rnd d0.nidx)) vk vk' (by
        intro hidx _ q hq
        have hjn : j = d0.nidx := by
          rw [← hidx]
          show d'.oidx = _
          rw [hev'.oidx, hf.oidx]
        exact hc hjn e he q hq)
    exact ⟨u, hu, hur⟩
  | deal dd k k' =>
    obtain ⟨u, hu, hur, -⟩ := processDeal_VR hS hnd h0 hdl hj hpl hev hv hvr dd k k' hc
    exact ⟨u, hu, hur⟩
  | response r k =>
    have hre : d.isResharing = false := hev.isResharing.trans hf.re
    rcases processResponse_ver (E := E) hre hv r k with ⟨-, h1⟩ | ⟨h1, h2⟩
    · exact ⟨v, h1, hvr⟩
    · have hw := hvr.response r.response (hc h1)
      rcases h2 with h2 | ⟨ju, h2⟩
      · exact ⟨_, h2, hw⟩
      · exact ⟨_, h2, by rw [hw.justification]; exact hw⟩
  | justification ju =>
    show ∃ v, (d.processJustification E ju).1.verifiers.get j = some v ∧ _
    unfold Dkg.processJustification
    split
    · exact ⟨v, hv, hvr⟩
    · rename_i v' hv'
      simp only
      show ∃ u, (d.verifiers.insert ju.index _).get j = some u ∧ _
      rw [AMap.get_insert]
      split
      · rename_i hjj
        rw [← hjj, hv] at hv'
        cases hv'
        exact ⟨_, rfl, by rw [hvr.justification]; exact hvr⟩
      · exact ⟨v, hv, hvr⟩
  | timeout =>
    refine ⟨v.setTimeout, ?_, hvr.timeout⟩
    show AMap.get (d.verifiers.map _) j = _
    rw [get_map, hv]; rfl

theorem run_VR (cs : List (DCall F G)) (hc : ∀ c ∈ cs, Fine E x ps d0 j (xd • E.suite.base) pl c) :
    ∃ v, (dRun E d0 cs).verifiers.get j = some v ∧
      VR E.suite x ps d0.nidx j (xd • E.suite.base) pl v := by
  have hf := newDistKeyGenerator_fresh h0
  have key : ∀ (cs : List (DCall F G)) (d : Dkg F G), Evolves E d0 d →
      (∃ v, d.verifiers.get j = some v ∧ VR E.suite x ps d0.nidx j (xd • E.suite.base) pl v) →
      (∀ c ∈ cs, Fine E x ps d0 j (xd • E.suite.base) pl c) →
      ∃ v, (dRun E d cs).verifiers.get j = some v ∧
        VR E.suite x ps d0.nidx j (xd • E.suite.base) pl v := by
    intro cs
    induction cs with
    | nil => intro d _ h _; exact h
    | cons c cs ih =>
      intro d hev h hc
      exact ih (dStep E d c) (hev.trans (dStep_evolves E d c))
        (step_VR hS hnd h0 hdl hj hpl hev h c (hc c (by simp)))
        (fun c' h' => hc c' (List.mem_cons_of_mem _ h'))
  refine key cs d0 (Evolves.refl E d0) ?_ hc
  refine ⟨_, hf.vers hnd j _ hj, startVer_st _ _ _ _ _ _, ?_, Or.inl ⟨rfl, rfl, rfl⟩⟩
  intro l r hr
  cases hr

end

end Kyber.DkgP
