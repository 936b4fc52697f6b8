/-
Lemmas for C120: what a participant of the Rabin DKG holds about one correct dealer while anything
else happens.
-/
import Verif.Lemmas.DkgRabinInv
import Verif.Spec.DkgPedersen

set_option linter.unusedSectionVars false

namespace Kyber.DkgR

open Kyber.Poly Kyber.Spec Kyber.VssR
open Kyber.VssP (EncryptedDeal context findPub validT)

variable {F G : Type} [Field F] [AddCommGroup G] [DecidableEq G] [SMul F G]

/-- The state of the answers to a correct deal `q`: it is stored, not marked as bad, and nobody of
`A` has complained. -/
structure Sound (pubs : List G) (q : VssR.Deal F G) (A : Finset Nat) (a : Aggregator F G) : Prop
    extends Wf pubs a where
  t : a.t = q.t
  sid : a.sid = q.sessionId
  deal : a.deal = some q
  bad : a.badDealer = false
  approve : ∀ l ∈ A, ∀ r, a.responses.get l = some r → r.status = true

/-- Everybody of `A` has a stored answer. -/
def Full (A : Finset Nat) (a : Aggregator F G) : Prop := ∀ l ∈ A, (a.responses.get l).isSome

variable {pubs : List G} {q : VssR.Deal F G} {A : Finset Nat} {a : Aggregator F G}

theorem Full.ext {a' : Aggregator F G} (h : Full A a) (e : Ext a a') : Full A a' := by
  intro l hl
  obtain ⟨r, hr⟩ := Option.isSome_iff_exists.1 (h l hl)
  obtain ⟨r', hr', -⟩ := e.responses l r hr
  rw [hr']; rfl

theorem Sound.remember (h : Sound pubs q A a) (d : VssR.Deal F G) : a.remember d = a := by
  unfold Aggregator.remember; rw [h.deal]

theorem Sound.verifyDeal (h : Sound pubs q A a) (E : Env F G) (d : VssR.Deal F G) :
    (a.verifyDeal E d false).1 = a := by
  rcases verifyDeal_fst E a d false with h' | h'
  · exact h'
  · rw [h', h.remember]

theorem Sound.add (h : Sound pubs q A a) (r : VssP.Response)
    (hr : r.index ∈ A → r.status = true) : Sound pubs q A (a.addResponse r).1 := by
  rcases addResponse_cases a r with ⟨e, h'⟩ | ⟨hl, -, h'⟩ <;> rw [h']
  · exact h
  · refine ⟨⟨h.verifiers, AMap.nodup_insert h.nodup _ _, ?_⟩, h.t, h.sid, h.deal, h.bad, ?_⟩
    · intro i r' hr'
      change (a.responses.insert r.index r).get i = _ at hr'
      rw [AMap.get_insert] at hr'
      split at hr'
      · rename_i hi; cases hr'; subst hi; exact ⟨rfl, h.verifiers ▸ hl⟩
      · exact h.index i r' hr'
    · intro l hlA r' hr'
      change (a.responses.insert r.index r).get l = _ at hr'
      rw [AMap.get_insert] at hr'
      split at hr'
      · rename_i hi; cases hr'; subst hi; exact hr hlA
      · exact h.approve l hlA r' hr'

theorem Sound.response (h : Sound pubs q A a) (S : Suite F G) (r : VssP.Response)
    (hr : r.sessionId = q.sessionId → Authentic S pubs r → r.index ∈ A → r.status = true) :
    Sound pubs q A (a.verifyResponse S r).1 := by
  rcases verifyResponse_cases S a r with ⟨e, h'⟩ | h' | ⟨pub, h1, h2, h3, h'⟩ <;> rw [h']
  · exact h
  · exact h
  · rw [h.verifiers] at h2
    exact h.add r (hr (h1.trans h.sid) ⟨pub, h2, h3⟩)

/-- An authentic answer for the right session fills the slot of its author. -/
theorem Sound.response_stored (h : Sound pubs q A a) (S : Suite F G) (r : VssP.Response)
    (h1 : r.sessionId = q.sessionId) (h2 : Authentic S pubs r) :
    ((a.verifyResponse S r).1.responses.get r.index).isSome := by
  obtain ⟨P, hP, hv⟩ := h2
  unfold Aggregator.verifyResponse
  rw [if_neg (by rw [h1, h.sid]; exact fun h => h rfl)]
  simp only [findPub, h.verifiers, hP, hv]
  unfold Aggregator.addResponse
  simp only [findPub, h.verifiers, hP, Option.isNone_some, Bool.false_eq_true, if_false]
  split
  · rename_i hs; exact hs
  · simp [AMap.get_insert]

theorem Sound.justification (h : Sound pubs q A a) (E : Env F G) (ju : VssR.Justification F G)
    (hju : ju.index ∈ A ∨ a.checkDeal E ju.deal = .ok ()) :
    Sound pubs q A (a.verifyJustification E ju).1 := by
  rcases verifyJustification_cases E a ju with
    ⟨e, h'⟩ | ⟨r, hl, hr, hs, ⟨-, h'⟩ | ⟨e, hc, h'⟩ | ⟨-, h'⟩⟩ <;> rw [h']
  · exact h
  · rw [h.remember]; exact h
  · exfalso
    rcases hju with hA | hok
    · rw [h.approve _ hA r hr] at hs; cases hs
    · rw [h.remember, hok] at hc; cases hc
  · rw [h.remember]
    refine ⟨⟨h.verifiers, AMap.nodup_insert h.nodup _ _, ?_⟩, h.t, h.sid, h.deal, h.bad, ?_⟩
    · intro i r' hr'
      change (a.responses.insert ju.index _).get i = _ at hr'
      rw [AMap.get_insert] at hr'
      split at hr'
      · rename_i hi; cases hr'; subst hi; exact h.index _ r hr
      · exact h.index i r' hr'
    · intro l hlA r' hr'
      change (a.responses.insert ju.index _).get l = _ at hr'
      rw [AMap.get_insert] at hr'
      split at hr'
      · cases hr'; rfl
      · exact h.approve l hlA r' hr'

theorem Sound.timeout (h : Sound pubs q A a) (hf : Full A a) : Sound pubs q A a.cleanVerifiers := by
  have hg := cleanVerifiers_get a
  refine ⟨⟨h.verifiers, nodup_cleanFold _ _ _ h.nodup, ?_⟩, h.t, h.sid, h.deal, h.bad, ?_⟩
  · intro i r' hr'
    rw [hg i] at hr'
    cases hi : a.responses.get i with
    | some r => rw [hi] at hr'; cases hr'; exact h.index i _ hi
    | none =>
      rw [hi] at hr'
      simp only at hr'
      split at hr'
      · rename_i hl; cases hr'; exact ⟨rfl, h.verifiers ▸ hl⟩
      · cases hr'
  · intro l hlA r' hr'
    obtain ⟨r, hr⟩ := Option.isSome_iff_exists.1 (hf l hlA)
    rw [hg l, hr] at hr'
    cases hr'
    exact h.approve l hlA _ hr

theorem timeout_stored (a : Aggregator F G) (l : Nat) (hl : l < a.verifiers.length) :
    (a.cleanVerifiers.responses.get l).isSome := by
  rw [cleanVerifiers_get]
  cases a.responses.get l with
  | some r => rfl
  | none => simp [hl]

/-- Enough approvals and no open answers: certified. -/
theorem Sound.certified (h : Sound pubs q A a) (hA : q.t ≤ A.card) (hlt : ∀ l ∈ A, l < pubs.length)
    (hf : Full A a) (hall : ∀ l < pubs.length, (a.responses.get l).isSome) :
    a.dealCertified = true := by
  rw [certified_iff h.toWf]
  refine ⟨h.bad, ?_, ?_⟩
  · unfold missing
    rw [Finset.filter_eq_empty_iff]
    intro l hl hn
    have := hall l (Finset.mem_range.1 hl)
    rw [hn] at this; cases this
  · rw [h.t]
    refine hA.trans (Finset.card_le_card ?_)
    intro l hl
    obtain ⟨r, hr⟩ := Option.isSome_iff_exists.1 (hf l hl)
    exact Finset.mem_filter.2 ⟨Finset.mem_range.2 (hlt l hl), r, hr, h.approve l hl r hr⟩

/-! ### The verifier for the dealer -/

/-- The verifier holds a sound state. -/
def SoundV (pubs : List G) (q : VssR.Deal F G) (A : Finset Nat) (v : Verifier F G) : Prop :=
  ∃ a, v.aggregator = some a ∧ Sound pubs q A a

/-- What a ciphertext in the name of the dealer may contain. -/
def OnlyR (E : Env F G) (x : F) (pub : G) (pubs : List G) (q : VssR.Deal F G) (e : EncryptedDeal G) :
    Prop :=
  ∀ v p, newVerifier E.suite x pub pubs = .ok v → v.decryptDeal E e = .ok p → p = q

/-- What is asked of a message about dealer `j`. -/
def FineR (E : Env F G) (x : F) (pub : G) (pubs : List G) (q : VssR.Deal F G) (A : Finset Nat)
    (own : Dealer F G) (i j : Nat) (P : VssR.Deal F G → Prop) : QCall F G → Prop
  | .deals dh k _ => j = i → ∀ e, own.encryptedDeal E i (dh i) (k i) = .ok e → OnlyR E x pub pubs q e
  | .deal dd _ => dd.index = j → OnlyR E x pub pubs q dd.deal
  | .response r _ => r.index = j → r.response.sessionId = q.sessionId →
      Authentic E.suite pubs r.response → r.response.index ∈ A → r.response.status = true
  | .justification ju => ju.index = j → ju.justification.index ∈ A ∨ P ju.justification.deal
  | _ => True

/-- A first deal of the dealer: the answers start with the approvals of the participant and of
the dealer. -/
theorem first_deal {E : Env F G} {x : F} {pub : G} {v0 v1 : Verifier F G} {e : EncryptedDeal G} {k : F}
    {resp : VssP.Response} (j i : Nat) (hv0 : newVerifier E.suite x pub pubs = .ok v0)
    (hi : pubs.findIdx? (fun p => decide (p = x • E.suite.base)) = some i)
    (hv1 : v0.processEncryptedDeal E e k = (v1, .ok resp)) (hq : OnlyR E x pub pubs q e)
    (hj : j < pubs.length)
    (hck : ∀ a : Aggregator F G, a.verifiers = pubs → a.sid = q.sessionId → a.checkDeal E q = .ok ()) :
    ∃ a, (rStep E v1 (.unsafeSet j true)).aggregator = some a ∧ Sound pubs q A a ∧
      (a.responses.get i).isSome ∧ (a.responses.get j).isSome := by
  obtain ⟨f1, f2, -, -, f5, -⟩ := newVerifier_fields hv0
  have hvi := newVerifier_index hv0 hi
  rcases processEncryptedDeal_cases E v0 e k with (⟨_, h⟩ | h) | ⟨d, hd, -, hn, ⟨-, h⟩ | ⟨st, hst, h1, h2⟩⟩
  · rw [h] at hv1; cases hv1
  · rw [h] at hv1; cases hv1
  · rw [h] at hv1; cases hv1
  have hdq := hq v0 d hv0 hd
  subst hdq
  have hag : v0.aggregatorFor d = newAggregator pubs d.commitments d.t d.sessionId := by
    unfold Verifier.aggregatorFor; rw [f1, f2]; rfl
  rw [hag] at h1 hst
  have hrem : (newAggregator pubs d.commitments d.t d.sessionId).remember d =
      { (newAggregator pubs d.commitments d.t d.sessionId : Aggregator F G) with deal := some d } := rfl
  have hst' : st = true := hst.1 (hck _ rfl rfl)
  subst hst'
  rw [hrem] at h1
  have hs0 : Sound pubs d A
      { (newAggregator pubs d.commitments d.t d.sessionId : Aggregator F G) with deal := some d } :=
    ⟨⟨rfl, List.nodup_nil, fun i r h => by cases h⟩, rfl, rfl, rfl, rfl, fun l _ r h => by cases h⟩
  rw [hv1] at h1
  simp only at h1
  subst h1
  set b := ({ (newAggregator pubs d.commitments d.t d.sessionId : Aggregator F G) with deal := some d })
  have hs1 := hs0.add (mkReply E v0 d k true) (fun _ => rfl)
  refine ⟨_, rfl, hs1.add _ (fun _ => rfl), ?_, ?_⟩
  · have hstored : (((b.addResponse (mkReply E v0 d k true)).1).responses.get i).isSome := by
      have hidx : (mkReply E v0 d k true).index = i := hvi
      rw [hvi] at f5
      unfold Aggregator.addResponse
      rw [hidx]
      have : (findPub b.verifiers i).isNone = false := by
        show (pubs[i]?).isNone = false
        rw [List.getElem?_eq_getElem f5]; rfl
      rw [if_neg (by rw [this]; simp)]
      have : (b.responses.get i).isSome = false := rfl
      rw [if_neg (by rw [this]; simp)]
      simp [AMap.get_insert]
    obtain ⟨r, hr⟩ := Option.isSome_iff_exists.1 hstored
    obtain ⟨r', hr', -⟩ := (addResponse_ext (b.addResponse (mkReply E v0 d k true)).1
      ⟨(b.addResponse (mkReply E v0 d k true)).1.sid, j, true, []⟩).responses i r hr
    exact Option.isSome_iff_exists.2 ⟨r', hr'⟩
  · set c := (b.addResponse (mkReply E v0 d k true)).1
    show ((c.addResponse ⟨c.sid, j, true, []⟩).1.responses.get j).isSome
    unfold Aggregator.addResponse
    have : (findPub c.verifiers j).isNone = false := by
      rw [hs1.verifiers]
      show (pubs[j]?).isNone = false
      rw [List.getElem?_eq_getElem hj]; rfl
    rw [if_neg (by rw [this]; simp)]
    simp only
    split
    · rename_i h; exact h
    · simp [AMap.get_insert]

/-! ### Calls on the participant -/

theorem processResponse_get (E : Env F G) (d : Dkg F G) (r : Response) (k : F) {j : Nat} {v : Verifier F G}
    (hv : d.verifiers.get j = some v) :
    (r.index ≠ j ∧ (d.processResponse E r k).1.verifiers.get j = some v) ∨
    (r.index = j ∧ ((d.processResponse E r k).1.verifiers.get j = some (rStep E v (.response r.response)) ∨
      ∃ ju : VssR.Justification F G, j = d.index ∧ ju.deal ∈ d.dealer.deals ∧
        (d.processResponse E r k).1.verifiers.get j =
          some (rStep E (rStep E v (.response r.response)) (.justification ju)))) := by
  by_cases hj : r.index = j
  · right
    refine ⟨hj, ?_⟩
    subst hj
    unfold Dkg.processResponse
    rw [hv]
    simp only
    have key : ∀ w res, v.processResponse E.suite r.response = (w, res) →
        w = rStep E v (.response r.response) := fun w res h => by
      show _ = (v.processResponse E.suite r.response).1
      rw [h]
    split
    · rename_i w e hw
      rw [key w _ hw]
      left; simp [AMap.get_insert]
    · rename_i w hw
      rw [key w _ hw]
      left; simp [AMap.get_insert]
    · rename_i w hw
      rw [key w _ hw]
      split
      · left; simp [AMap.get_insert]
      · rename_i hown
        simp only [ne_eq, not_not] at hown
        split
        · left; simp [AMap.get_insert]
        · left; simp [AMap.get_insert]
        · left; simp [AMap.get_insert]
        · rename_i dl ju hd
          right
          refine ⟨ju, hown, ?_, ?_⟩
          · unfold Dealer.processResponse at hd
            simp only at hd
            split at hd
            · cases hd
            · cases hd
            · split at hd
              · cases hd
              · split at hd
                · cases hd
                · rename_i deal hdeal
                  cases hd
                  exact List.mem_of_getElem? hdeal
          · split <;> simp [AMap.get_insert, rStep]
  · left
    refine ⟨hj, ?_⟩
    have hne : j ≠ r.index := fun h => hj h.symm
    unfold Dkg.processResponse
    split
    · exact hv
    · split
      · simp [AMap.get_insert, hne, hv]
      · simp [AMap.get_insert, hne, hv]
      · simp only
        split
        · simp [AMap.get_insert, hne, hv]
        · split
          · simp [AMap.get_insert, hne, hv]
          · simp [AMap.get_insert, hne, hv]
          · simp [AMap.get_insert, hne, hv]
          · split <;> simp [AMap.get_insert, hne, hv]

/-- Something that the own deal and its approval keep is kept by `deals`. -/
theorem dealsLoop_inv (E : Env F G) (Q : Dkg F G → Prop) (encs : List (EncryptedDeal G)) (vk : F)
    (h1 : ∀ d e, Q d → encs[d.index]? = some e → Q (d.processDeal E ⟨d.index, e⟩ vk).1)
    (h2 : ∀ d, Q d → Q (approveOwn d)) (l : List Nat) (d : Dkg F G) (dd : AMap (Deal G)) (h : Q d) :
    Q (Dkg.dealsLoop E encs vk l d dd).1 := by
  induction l generalizing d dd with
  | nil => exact h
  | cons i l ih =>
    unfold Dkg.dealsLoop
    split
    · exact h
    · rename_i e he
      split
      · rename_i hi
        subst hi
        split
        · exact ih d dd h
        · have h0 := h1 d e h he
          split
          · rename_i d' r hd'
            rw [hd'] at h0
            split
            · exact h0
            · exact ih _ _ (h2 d' h0)
          · rename_i d' r hd'; rw [hd'] at h0; exact h0
          · rename_i d' hd'; rw [hd'] at h0; exact h0
      · exact ih _ _ h

section

variable {E : Env F G} {x : F} {pub : G} {i j : Nat} {P : VssR.Deal F G → Prop} {d0 : Dkg F G}

/-- What is known of the participant and of dealer `j`. -/
structure Known (E : Env F G) (x : F) (pub : G) (pubs : List G) (q : VssR.Deal F G) (j : Nat)
    (P : VssR.Deal F G → Prop) (d0 : Dkg F G) : Prop where
  long : d0.long = x
  participants : d0.participants = pubs
  index : pubs.findIdx? (fun p => decide (p = x • E.suite.base)) = some d0.index
  dealer : pubs[j]? = some pub
  deal : P q
  check : ∀ p, P p → ∀ a : Aggregator F G, a.verifiers = pubs → a.sid = q.sessionId →
    a.checkDeal E p = .ok ()
  own : d0.index = j → ∀ p ∈ d0.dealer.deals, P p

/-- Nothing stored about dealer `j`, or a sound state with the approvals of the participant and
of the dealer. -/
def InvR (pubs : List G) (q : VssR.Deal F G) (A : Finset Nat) (i j : Nat) (d : Dkg F G) : Prop :=
  ∀ v, d.verifiers.get j = some v → ∃ a, v.aggregator = some a ∧ Sound pubs q A a ∧
    (a.responses.get i).isSome ∧ (a.responses.get j).isSome

theorem isSome_ext {a a' : Aggregator F G} (e : Ext a a') {l : Nat} (h : (a.responses.get l).isSome) :
    (a'.responses.get l).isSome := by
  obtain ⟨r, hr⟩ := Option.isSome_iff_exists.1 h
  obtain ⟨r', hr', -⟩ := e.responses l r hr
  rw [hr']; rfl

theorem processDeal_inv (hk : Known E x pub pubs q j P d0) {d : Dkg F G} (hd : Evolves E d0 d)
    (h : InvR pubs q A d0.index j d) (dd : Deal G) (k : F)
    (hdd : dd.index = j → OnlyR E x pub pubs q dd.deal) :
    InvR pubs q A d0.index j (d.processDeal E dd k).1 := by
  rcases processDeal_cases E d dd k with (⟨e, h'⟩ | h') | ⟨pub', v0, v1, resp, hp, hn, hv0, hv1, h'⟩
    <;> rw [h']
  · exact h
  · exact h
  · intro v hv
    change (d.verifiers.insert dd.index _).get j = _ at hv
    rw [AMap.get_insert] at hv
    split at hv
    · rename_i hj
      cases hv
      rw [hd.participants, hk.participants] at hp hv0
      rw [hd.long, hk.long] at hv0
      rw [← hj, hk.dealer] at hp
      cases hp
      rw [← hj]
      exact first_deal j d0.index hv0 hk.index hv1 (hdd hj.symm)
        (List.getElem?_eq_some_iff.1 hk.dealer).1 (hk.check q hk.deal)
    · exact h v hv

/-- One call on a participant that has stored a deal of the dealer. -/
theorem step_sound (hk : Known E x pub pubs q j P d0) {d : Dkg F G} (hd : Evolves E d0 d)
    {v : Verifier F G} (hv : d.verifiers.get j = some v) {a : Aggregator F G} (ha : v.aggregator = some a)
    (h : Sound pubs q A a) (c : QCall F G)
    (hc : FineR E x pub pubs q A d0.dealer d0.index j P c) (ht : c = .timeout → Full A a) :
    ∃ w b, (qStep E d c).verifiers.get j = some w ∧ w.aggregator = some b ∧ Sound pubs q A b ∧ Ext a b := by
  have hset : ∀ (m : AMap (Verifier F G)) (l : Nat) (w : Verifier F G), l ≠ j →
      m.get j = some v → (m.insert l w).get j = some v := by
    intro m l w hl hm
    rw [AMap.get_insert, if_neg (fun h => hl h.symm)]; exact hm
  have hsame : ∀ d' : Dkg F G, d'.verifiers.get j = some v →
      ∃ w b, d'.verifiers.get j = some w ∧ w.aggregator = some b ∧ Sound pubs q A b ∧ Ext a b :=
    fun d' h' => ⟨v, a, h', ha, h, Ext.refl a⟩
  have hpd : ∀ (d' : Dkg F G), d'.verifiers.get j = some v → ∀ dd k,
      (d'.processDeal E dd k).1.verifiers.get j = some v := by
    intro d' hv' dd k
    rcases processDeal_cases E d' dd k with (⟨e, h'⟩ | h') | ⟨_, _, _, _, -, hn, -, -, h'⟩ <;> rw [h']
    · exact hv'
    · exact hv'
    · exact hset _ _ _ (by rintro rfl; rw [hn] at hv'; cases hv') hv'
  have hresp : ∀ r : VssP.Response, (r.sessionId = q.sessionId → Authentic E.suite pubs r →
      r.index ∈ A → r.status = true) →
      ∃ b, (rStep E v (.response r)).aggregator = some b ∧ Sound pubs q A b ∧ Ext a b := by
    intro r hr
    refine ⟨(a.verifyResponse E.suite r).1, ?_, h.response E.suite r hr, verifyResponse_ext E.suite a r⟩
    simp only [rStep, Verifier.processResponse, ha]
  have hjust : ∀ (w : Verifier F G) (b : Aggregator F G), w.aggregator = some b → Sound pubs q A b →
      ∀ ju : VssR.Justification F G, (ju.index ∈ A ∨ P ju.deal) →
      ∃ b', (rStep E w (.justification ju)).aggregator = some b' ∧ Sound pubs q A b' ∧ Ext b b' := by
    intro w b hw hb ju hju
    refine ⟨(b.verifyJustification E ju).1, ?_, hb.justification E ju ?_, verifyJustification_ext E b ju⟩
    · simp only [rStep, Verifier.processJustification, hw]
    · rcases hju with hju | hju
      · exact Or.inl hju
      · exact Or.inr (hk.check _ hju b hb.verifiers hb.sid)
  cases c with
  | deals dh k vk =>
    apply hsame
    show (d.deals E dh k vk).1.verifiers.get j = some v
    unfold Dkg.deals
    split
    · exact hv
    · exact hv
    · exact dealsLoop_inv E (fun d' => d'.verifiers.get j = some v) _ _
        (fun d' e h' _ => hpd d' h' _ _) (fun d' h' => h') _ _ _ hv
  | deal dd k => exact hsame _ (hpd d hv dd k)
  | response r k =>
    rcases processResponse_get E d r k hv with ⟨-, h'⟩ | ⟨hr, h' | ⟨ju, hj, hju, h'⟩⟩
    · exact hsame _ h'
    · obtain ⟨b, hb1, hb2, hb3⟩ := hresp r.response (hc hr)
      exact ⟨_, b, h', hb1, hb2, hb3⟩
    · obtain ⟨b, hb1, hb2, hb3⟩ := hresp r.response (hc hr)
      obtain ⟨b', hb1', hb2', hb3'⟩ := hjust _ b hb1 hb2 ju (Or.inr (hk.own (by rw [hj, hd.index]) _ (by
        rw [hd.dealer.deals] at hju; exact hju)))
      exact ⟨_, b', h', hb1', hb2', hb3.trans hb3'⟩
  | justification ju =>
    by_cases hj : ju.index = j
    · obtain ⟨b, hb1, hb2, hb3⟩ := hjust v a ha h ju.justification (hc hj)
      refine ⟨_, b, ?_, hb1, hb2, hb3⟩
      show (d.processJustification E ju).1.verifiers.get j = _
      unfold Dkg.processJustification
      rw [hj, hv]
      simp [AMap.get_insert, rStep]
    · apply hsame
      show (d.processJustification E ju).1.verifiers.get j = _
      unfold Dkg.processJustification
      split
      · exact hv
      · exact hset _ _ _ hj hv
  | timeout =>
    refine ⟨v.setTimeout, a.cleanVerifiers, ?_, ?_, h.timeout (ht rfl), cleanVerifiers_ext a⟩
    · show AMap.get (d.verifiers.map _) j = _
      rw [get_map, hv]; rfl
    · simp [Verifier.setTimeout, ha]
  | ownCommits k =>
    apply hsame
    show (d.secretCommits E.suite k).1.verifiers.get j = _
    unfold Dkg.secretCommits
    split
    · exact hv
    · split <;> exact hv
  | commits ord sc k =>
    apply hsame
    show (d.processSecretCommits E ord sc k).1.verifiers.get j = _
    rcases processSecretCommits_cases E ord d sc k with ⟨h', -⟩ | ⟨_, _, _, -, -, -, -, -, -, -, h'⟩ <;>
      rw [h'] <;> exact hv
  | complaint ord cc k =>
    have hac : ∀ u, d.verifiers.get cc.dealerIndex = some u → (afterCheck E d cc u).verifiers.get j = some v := by
      intro u hu
      show (d.verifiers.insert cc.dealerIndex _).get j = _
      rw [AMap.get_insert]
      split
      · rename_i hj
        subst hj
        rw [hv] at hu
        cases hu
        have hvd : v.onAggregator (fun a => (a.verifyDeal E cc.deal false).1) = v := by
          unfold Verifier.onAggregator
          obtain ⟨v1, v2, v3, v4, v5, v6, v7⟩ := v
          simp only at ha
          subst ha
          simp [h.verifyDeal E cc.deal]
        show some (v.onAggregator (fun a => (a.verifyDeal E cc.deal false).1)) = _
        rw [hvd]
      · exact hv
    apply hsame
    show (d.processComplaintCommits E ord cc k).1.verifiers.get j = _
    rcases processComplaintCommits_cases E ord d cc k with ⟨h' | ⟨u, hu, h'⟩, -⟩ |
      ⟨_, u, _, _, _, -, -, -, hu, -, -, -, -, -, rc, -, -, -, -, -, h'⟩ <;> rw [h']
    · exact hv
    · exact hac u hu
    · exact hac u hu
  | reconstruct ord rc =>
    apply hsame
    show (d.processReconstructCommits E ord rc).1.verifiers.get j = _
    rcases processReconstructCommits_cases E ord d rc with (h' | ⟨arr, h', -⟩) |
      ⟨_, _, _, -, -, -, -, -, -, -, -, h'⟩ <;> rw [h'] <;> exact hv

/-- One call on a participant that has nothing from the dealer. -/
theorem step_none (hk : Known E x pub pubs q j P d0) {d : Dkg F G} (hd : Evolves E d0 d)
    (hn : d.verifiers.get j = none) (c : QCall F G)
    (hc : FineR E x pub pubs q A d0.dealer d0.index j P c) : InvR pubs q A d0.index j (qStep E d c) := by
  have hno : InvR pubs q A d0.index j d := fun v hv => by rw [hn] at hv; cases hv
  have hkeep : ∀ d' : Dkg F G, Keeps E d d' → InvR pubs q A d0.index j d' := fun d' h v hv => by
    rw [h.none j hn] at hv; cases hv
  cases c with
  | deals dh k vk =>
    show InvR pubs q A d0.index j (d.deals E dh k vk).1
    unfold Dkg.deals
    split
    · exact hno
    · exact hno
    · rename_i encs hm
      refine (dealsLoop_inv E (fun d' => Evolves E d0 d' ∧ InvR pubs q A d0.index j d') _ _ ?_ ?_ _ _ _
        ⟨hd, hno⟩).2
      · rintro d' e ⟨h1, h2⟩ he
        refine ⟨h1.trans (processDeal_evolves E d' _ _), processDeal_inv hk h1 h2 _ _ ?_⟩
        intro hj
        have he' := mapM_range_get _ _ _ hm _ e he
        have hj' : j = d0.index := by rw [← hj]; exact h1.index
        refine hc hj' e ?_
        rw [h1.index] at he'
        rw [← he']
        unfold Dealer.encryptedDeal
        rw [hd.dealer.verifiers, hd.dealer.long, hd.dealer.hkdfContext, hd.dealer.deals]
      · rintro d' ⟨h1, h2⟩
        exact ⟨h1.trans (approveOwn_keeps E d').toEvolves, h2⟩
  | deal dd k => exact processDeal_inv hk hd hno dd k hc
  | response r k => exact hkeep _ (processResponse_keeps E d r k)
  | justification ju => exact hkeep _ (processJustification_keeps E d ju)
  | timeout => exact hkeep _ (setTimeout_keeps E d)
  | ownCommits k => exact hkeep _ (secretCommits_keeps E d k)
  | commits ord sc k => exact hkeep _ (processSecretCommits_keeps E ord d sc k)
  | complaint ord cc k => exact hkeep _ (processComplaintCommits_keeps E ord d cc k)
  | reconstruct ord rc => exact hkeep _ (processReconstructCommits_keeps E ord d rc)

theorem step_inv (hk : Known E x pub pubs q j P d0) {d : Dkg F G} (hd : Evolves E d0 d)
    (h : InvR pubs q A d0.index j d) (c : QCall F G)
    (hc : FineR E x pub pubs q A d0.dealer d0.index j P c)
    (ht : c = .timeout → d.verifiers.get j = none) : InvR pubs q A d0.index j (qStep E d c) := by
  cases hv : d.verifiers.get j with
  | none => exact step_none hk hd hv c hc
  | some v =>
    obtain ⟨a, ha, hs, h1, h2⟩ := h v hv
    obtain ⟨w, b, hw, hb, hsb, he⟩ := step_sound hk hd hv ha hs c hc (fun e => by
      rw [ht e] at hv; cases hv)
    intro u hu
    rw [hw] at hu
    cases hu
    exact ⟨b, hb, hsb, isSome_ext he h1, isSome_ext he h2⟩

/-- Calls before the timeout. -/
theorem run_inv (hk : Known E x pub pubs q j P d0) {d : Dkg F G} (hd : Evolves E d0 d)
    (h : InvR pubs q A d0.index j d) (cs : List (QCall F G))
    (hc : ∀ c ∈ cs, FineR E x pub pubs q A d0.dealer d0.index j P c) (ht : .timeout ∉ cs) :
    InvR pubs q A d0.index j (qRun E d cs) := by
  induction cs generalizing d with
  | nil => exact h
  | cons c cs ih =>
    refine ih (hd.trans (qStep_evolves E d c)) (step_inv hk hd h c (hc c (by simp)) ?_)
      (fun c' h' => hc c' (by simp [h'])) (fun h' => ht (by simp [h']))
    rintro rfl
    exact absurd (by simp) ht

/-- Calls once everybody of `A` has answered. -/
theorem run_full (hk : Known E x pub pubs q j P d0) {d : Dkg F G} (hd : Evolves E d0 d)
    {v : Verifier F G} (hv : d.verifiers.get j = some v) {a : Aggregator F G} (ha : v.aggregator = some a)
    (h : Sound pubs q A a) (hf : Full A a) (cs : List (QCall F G))
    (hc : ∀ c ∈ cs, FineR E x pub pubs q A d0.dealer d0.index j P c) :
    ∃ w b, (qRun E d cs).verifiers.get j = some w ∧ w.aggregator = some b ∧ Sound pubs q A b ∧ Ext a b := by
  induction cs generalizing d v a with
  | nil => exact ⟨v, a, hv, ha, h, Ext.refl a⟩
  | cons c cs ih =>
    obtain ⟨w, b, h1, h2, h3, h4⟩ := step_sound hk hd hv ha h c (hc c (by simp)) (fun _ => hf)
    obtain ⟨w', b', g1, g2, g3, g4⟩ := ih (hd.trans (qStep_evolves E d c)) h1 h2 h3 (hf.ext h4)
      (fun c' h' => hc c' (by simp [h']))
    exact ⟨w', b', g1, g2, g3, h4.trans g4⟩

end

end Kyber.DkgR
