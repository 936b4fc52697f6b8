/-
Invariants of the Rabin DKG: the own deal and the commitments.
-/
import Verif.Lemmas.DkgRabinKey

set_option linter.unusedSectionVars false

namespace Kyber.DkgR

open Kyber.Poly Kyber.Spec Kyber.VssR
open Kyber.VssP (EncryptedDeal context findPub validT)

variable {F G : Type} [Field F] [AddCommGroup G] [DecidableEq G]

section

variable [SMul F G]

/-- If the intended verifier can decrypt what the dealer encrypted, it gets the deal. -/
theorem decrypt_own (E : Env F G) (hl : Lin F E.suite.base) (hP : E.prims.Lawful)
    {d : Dealer F G} (hC : ∀ dl ∈ d.deals, E.codec.dec (E.codec.enc dl) = some dl)
    {i : Nat} {dh k : F}
    {e : EncryptedDeal G} {v : Verifier F G} {dl : VssR.Deal F G}
    (hpub : d.verifiers[i]? = some (v.longterm • E.suite.base))
    (hctx : v.hkdfContext = d.hkdfContext)
    (he : d.encryptedDeal E i dh k = .ok e) (hd : v.decryptDeal E e = .ok dl) :
    d.deals[i]? = some dl := by
  unfold Dealer.encryptedDeal at he
  simp only [findPub, hpub, Res.ofOption_some, Res.bind_ok, Res.bind_eq_ok, Res.mapErr_eq_ok,
    Res.unwrap_eq_ok, Res.ok.injEq] at he
  obtain ⟨gcm, hgcm, deal, hdeal, c, hc, rfl⟩ := he
  have hpre : Dh.dhExchange v.longterm (dh • E.suite.base) =
      Dh.dhExchange dh (v.longterm • E.suite.base) := by
    exact hl.comm _ _
  unfold Verifier.decryptDeal at hd
  rw [Res.bind_eq_ok] at hd
  obtain ⟨_, -, hd⟩ := hd
  simp only [hpre, hctx, hgcm, Res.mapErr_ok, Res.bind_ok, List.length_replicate, ne_eq, not_true,
    if_false] at hd
  unfold Dh.AEAD.seal_ Dh.aesEncrypt Dh.copyOut at hc
  simp only [Res.bind_eq_ok, Res.ite_err_eq_ok, Res.ofOption_eq_ok, Res.ok.injEq] at hc
  obtain ⟨c', ⟨hlen, hc'⟩, rfl⟩ := hc
  unfold Dh.AEAD.open_ Dh.aesDecrypt Dh.copyOut at hd
  rw [if_neg hlen, hP.open_seal _ _ _ _ _ hc'] at hd
  simp only [Res.ofOption_some, Res.bind_ok, List.nil_append, Res.mapErr_ok,
    hC deal (List.mem_of_getElem? hdeal), Res.ok.injEq] at hd
  rw [hdeal, hd]

/-- The history contains no foreign deal that claims to come from participant `i`. -/
def NoForeignOwn (i : Nat) (cs : List (QCall F G)) : Prop :=
  ∀ dd k, QCall.deal dd k ∈ cs → dd.index ≠ i

/-- The fixed data of a participant. -/
structure Setup (E : Env F G) (d : Dkg F G) : Prop where
  idx : d.participants.findIdx? (fun p => decide (p = d.long • E.suite.base)) = some d.index
  long : d.dealer.long = d.long
  verifiers : d.dealer.verifiers = d.participants
  ctx : d.dealer.hkdfContext = context E.suite (d.long • E.suite.base) d.participants
  aggVerifiers : d.dealer.aggregator.verifiers = d.participants
  stored : ∀ i v, d.verifiers.get i = some v → Stored E d.long d.participants i v

theorem Setup.step {E : Env F G} {d d' : Dkg F G} (h : Setup E d) (he : Evolves E d d') :
    Setup E d' := by
  refine ⟨?_, ?_, ?_, ?_, ?_, ?_⟩
  · rw [he.participants, he.long, he.index]; exact h.idx
  · rw [he.dealer.long, he.long]; exact h.long
  · rw [he.dealer.verifiers, he.participants]; exact h.verifiers
  · rw [he.dealer.hkdfContext, he.participants, he.long]; exact h.ctx
  · rw [he.dealer.agg.verifiers, he.participants]; exact h.aggVerifiers
  · intro i v hv
    rw [he.long, he.participants]
    cases hd : d.verifiers.get i with
    | none => exact he.new i v hd hv
    | some w =>
      obtain ⟨cs, h1, h2⟩ := he.kept i w hd
      rw [hv] at h2; cases h2
      exact (h.stored i w hd).run cs h1

theorem Setup.pub {E : Env F G} {d : Dkg F G} (h : Setup E d) :
    d.participants[d.index]? = some (d.long • E.suite.base) := by
  have := h.idx
  rw [List.findIdx?_eq_some_iff_getElem] at this
  obtain ⟨hl, he, -⟩ := this
  simp only [decide_eq_true_eq] at he
  rw [List.getElem?_eq_getElem hl, he]

theorem setup_new {E : Env F G} {x : F} {pubs : List G} {t : Nat} {secret : F}
    {fD gD : List F} {d : Dkg F G} (h : newDistKeyGenerator E x pubs t secret fD gD = .ok d) :
    Setup E d := by
  obtain ⟨h1, h2, h3, h4, h5, h6, h7, -⟩ := newDistKeyGenerator_ok h
  obtain ⟨f, g, -, -, -, -, -, -, g1, -, -, g4, -, -, g7, -, -, g10⟩ := newDealer_ok h2
  refine ⟨?_, ?_, ?_, ?_, ?_, ?_⟩
  · rw [h5, h3]; exact h1
  · rw [g1, h3]
  · rw [g4, h5]
  · rw [g7, h3, h5]
  · rw [g10, h5]; rfl
  · intro i v hv; rw [h7] at hv; cases hv

/-- `HoldsDeal` is kept. -/
theorem HoldsDeal.step {E : Env F G} {d d' : Dkg F G} (he : Evolves E d d') {i : Nat}
    {dl : VssR.Deal F G} (h : HoldsDeal d i dl) : HoldsDeal d' i dl := by
  obtain ⟨v, a, h1, h2, h3⟩ := h
  obtain ⟨cs, -, h4⟩ := he.kept i v h1
  obtain ⟨a', h5, h6⟩ := rRun_ext E v cs a h2
  exact ⟨_, a', h4, h5, h6.deal _ h3⟩

/-- Held deals are for this participant. -/
theorem Setup.holds {E : Env F G} {d : Dkg F G} (h : Setup E d) {i : Nat} {v : Verifier F G}
    (hv : d.verifiers.get i = some v) :
    ∃ a dl, v.aggregator = some a ∧ a.deal = some dl ∧ dl.secShare.i = d.index ∧ a.t = dl.t ∧
      Wf d.participants a := by
  obtain ⟨pub, v0, e, dl, a, h1, h2, h3, h4, h5, h6, h7, h8, h9⟩ := (h.stored i v hv).deal
  exact ⟨a, dl, h6, h7, by rw [h4, newVerifier_index h2 h.idx], h8, h9⟩

/-- The own deal, and that the dealer hears of responses only after it. -/
structure OwnInv (d : Dkg F G) : Prop where
  own : ∀ v, d.verifiers.get d.index = some v →
    ∃ dl, HoldsDeal d d.index dl ∧ d.dealer.deals[d.index]? = some dl
  resp : d.dealer.aggregator.responses ≠ [] → ∃ v, d.verifiers.get d.index = some v

theorem OwnInv.keeps {E : Env F G} {d d' : Dkg F G} (h : OwnInv d) (he : Keeps E d d')
    (hr : d'.dealer.aggregator.responses ≠ [] →
      d.dealer.aggregator.responses ≠ [] ∨ ∃ v, d.verifiers.get d.index = some v) : OwnInv d' := by
  refine ⟨?_, ?_⟩
  · intro v hv
    rw [he.index] at hv ⊢
    cases hd : d.verifiers.get d.index with
    | none => rw [he.none _ hd] at hv; cases hv
    | some w =>
      obtain ⟨dl, h1, h2⟩ := h.own w hd
      exact ⟨dl, HoldsDeal.step he.toEvolves h1, by rw [he.dealer.deals]; exact h2⟩
  · intro hne
    have : ∃ v, d.verifiers.get d.index = some v := by
      rcases hr hne with h1 | h1
      · exact h.resp h1
      · exact h1
    obtain ⟨v, hv⟩ := this
    obtain ⟨cs, -, h4⟩ := he.kept _ _ hv
    exact ⟨_, by rw [he.index]; exact h4⟩

theorem OwnInv.evolves {E : Env F G} {d d' : Dkg F G} (h : OwnInv d) (he : Evolves E d d')
    (hnew : d.verifiers.get d.index = none → d'.verifiers.get d.index = none)
    (hr : d'.dealer = d.dealer) : OwnInv d' := by
  refine ⟨?_, ?_⟩
  · intro v hv
    rw [he.index] at hv ⊢
    cases hd : d.verifiers.get d.index with
    | none => rw [hnew hd] at hv; cases hv
    | some w =>
      obtain ⟨dl, h1, h2⟩ := h.own w hd
      exact ⟨dl, HoldsDeal.step he h1, by rw [he.dealer.deals]; exact h2⟩
  · intro hne
    rw [hr] at hne
    obtain ⟨v, hv⟩ := h.resp hne
    obtain ⟨cs, -, h4⟩ := he.kept _ _ hv
    exact ⟨_, by rw [he.index]; exact h4⟩

theorem processDeal_dealer (E : Env F G) (d : Dkg F G) (dd : Deal G) (k : F) :
    (d.processDeal E dd k).1.dealer = d.dealer := by
  rcases processDeal_cases E d dd k with (⟨e, h⟩ | h) | ⟨pub, v0, v1, resp, hp, hn, hv0, hv1, h⟩
    <;> rw [h]

/-- The own deal through `deals()`. -/
theorem processDeal_own (E : Env F G) (hl : Lin F E.suite.base) (hP : E.prims.Lawful)
    (d : Dkg F G) (hC : ∀ dl ∈ d.dealer.deals, E.codec.dec (E.codec.enc dl) = some dl)
    (hs : Setup E d) (dh k vk : F)
    (e : EncryptedDeal G) (he : d.dealer.encryptedDeal E d.index dh k = .ok e) (d' : Dkg F G)
    (r : Response) (hd' : d.processDeal E ⟨d.index, e⟩ vk = (d', .ok r)) :
    ∃ v dl, d'.verifiers.get d.index = some v ∧ HoldsDeal d' d.index dl ∧
      d.dealer.deals[d.index]? = some dl := by
  have hs' : Setup E d' := by
    have := processDeal_evolves E d ⟨d.index, e⟩ vk
    rw [hd'] at this
    exact hs.step this
  rcases processDeal_cases E d ⟨d.index, e⟩ vk with (⟨e, h⟩ | h) |
    ⟨pub, v0, v1, resp, hp, hn, hv0, hv1, h⟩
  · rw [hd'] at h; cases congrArg Prod.snd h
  · rw [hd'] at h; cases congrArg Prod.snd h
  · rw [hd'] at h
    simp only [Prod.mk.injEq] at h
    obtain ⟨rfl, -⟩ := h
    simp only at hp hn hv1
    rw [hs.pub] at hp
    cases hp
    obtain ⟨f1, f2, f3, f4, f5, f6⟩ := newVerifier_fields hv0
    rcases processEncryptedDeal_cases E v0 e vk with (⟨_, h⟩ | h) | ⟨dl, hdl, hi, hn', ⟨-, h⟩ | ⟨st, hst, h, h'⟩⟩
    · rw [hv1] at h; cases congrArg Prod.snd h
    · rw [hv1] at h; cases congrArg Prod.snd h
    · rw [hv1] at h; cases congrArg Prod.snd h
    · rw [hv1] at h
      simp only at h
      have hfor : v0.aggregatorFor dl = newAggregator d.participants dl.commitments dl.t dl.sessionId := by
        unfold Verifier.aggregatorFor; rw [f1, f2]; rfl
      have hctx : v0.hkdfContext = context E.suite (d.long • E.suite.base) d.participants := by
        unfold newVerifier at hv0
        simp only [hs.idx, Res.ok.injEq] at hv0
        rw [← hv0]
      have hdeal := decrypt_own E hl hP hC (v := v0) (by rw [hs.verifiers, f4]; exact hs.pub)
        (by rw [hctx, hs.ctx]) he hdl
      have hget : (d.verifiers.insert d.index (rStep E v1 (.unsafeSet d.index true))).get d.index =
          some (rStep E v1 (.unsafeSet d.index true)) := by
        rw [AMap.get_insert, if_pos rfl]
      set a0 : Aggregator F G := (newAggregator d.participants dl.commitments dl.t dl.sessionId).remember dl
        with ha0
      have hx := addResponse_ext a0 (mkReply E v0 dl vk st)
      obtain ⟨a2, ha2, hext⟩ := rStep_ext E v1 (.unsafeSet d.index true)
        (a0.addResponse (mkReply E v0 dl vk st)).1 (by rw [h, hfor])
      refine ⟨_, dl, hget, ⟨_, a2, hget, ha2, hext.deal dl (hx.deal dl (by rw [ha0]; rfl))⟩, hdeal⟩

theorem dealsLoop_own (E : Env F G) (hl : Lin F E.suite.base) (hP : E.prims.Lawful)
    (dh k : Nat → F) (vk : F)
    (encs : List (EncryptedDeal G)) (l : List Nat) (d : Dkg F G)
    (hC : ∀ dl ∈ d.dealer.deals, E.codec.dec (E.codec.enc dl) = some dl)
    (hencs : ∀ i e, encs[i]? = some e → d.dealer.encryptedDeal E i (dh i) (k i) = .ok e)
    (dd : AMap (Deal G)) (hs : Setup E d) (h : OwnInv d) :
    OwnInv (Dkg.dealsLoop E encs vk l d dd).1 := by
  induction l generalizing d dd with
  | nil => exact h
  | cons i l ih =>
    unfold Dkg.dealsLoop
    split
    · exact h
    · rename_i e he
      split
      · rename_i hi
        split
        · exact ih d hC hencs dd hs h
        · rename_i hc
          have h0 := processDeal_evolves E d ⟨d.index, e⟩ vk
          have hdl := processDeal_dealer E d ⟨d.index, e⟩ vk
          split
          · rename_i d' r hd'
            rw [hd'] at h0 hdl
            simp only at h0 hdl
            obtain ⟨v, dl, g1, g2, g3⟩ := processDeal_own E hl hP d hC hs _ _ vk e
              (by rw [← hi]; exact hencs i e he) d' r hd'
            have hown' : OwnInv d' := by
              refine ⟨fun _ _ => ⟨dl, by rw [h0.index]; exact g2, by rw [hdl, h0.index]; exact g3⟩,
                fun _ => ⟨v, by rw [h0.index]; exact g1⟩⟩
            split
            · exact hown'
            · have hk := approveOwn_keeps E d'
              have hown2 : OwnInv (approveOwn d') :=
                hown'.keeps hk (fun _ => Or.inr ⟨v, by rw [h0.index]; exact g1⟩)
              refine ih (approveOwn d')
                (by rw [hk.dealer.deals, h0.dealer.deals]; exact hC) ?_ dd ((hs.step h0).step hk.toEvolves) hown2
              intro j e' he'
              have := hencs j e' he'
              rw [← hdl] at this
              exact this
          · rename_i d' r hd'
            rcases processDeal_cases E d ⟨d.index, e⟩ vk with (⟨e, h1⟩ | h1) | ⟨_, _, _, _, _, _, _, _, h1⟩
            · rw [hd'] at h1
              simp only [Prod.mk.injEq] at h1
              rw [h1.1]; exact h
            · rw [hd'] at h1; cases congrArg Prod.snd h1
            · rw [hd'] at h1; cases congrArg Prod.snd h1
          · rename_i d' hd'
            rcases processDeal_cases E d ⟨d.index, e⟩ vk with (⟨e, h1⟩ | h1) | ⟨_, _, _, _, _, _, _, _, h1⟩
            · rw [hd'] at h1; cases congrArg Prod.snd h1
            · rw [hd'] at h1
              simp only [Prod.mk.injEq] at h1
              rw [h1.1]; exact h
            · rw [hd'] at h1; cases congrArg Prod.snd h1
      · exact ih _ hC hencs _ hs h

theorem mapM_range_get {ε β : Type} (g : Nat → Res ε β) (n : Nat) (out : List β)
    (h : (List.range n).mapM g = .ok out) (i : Nat) (e : β) (he : out[i]? = some e) :
    g i = .ok e := by
  have key : ∀ (l : List Nat) (out : List β), l.mapM g = .ok out →
      ∀ (i : Nat) (e : β), out[i]? = some e → ∃ j : Nat, l[i]? = some j ∧ g j = .ok e := by
    intro l
    induction l with
    | nil =>
      intro out h i e he
      simp only [List.mapM_nil, Res.pure_eq, Res.ok.injEq] at h
      subst h; simp at he
    | cons a l ih =>
      intro out h i e he
      rw [List.mapM_cons, Res.bind_eq_ok] at h
      obtain ⟨b, hb, h⟩ := h
      rw [Res.bind_eq_ok] at h
      obtain ⟨bs, hbs, h⟩ := h
      simp only [Res.pure_eq, Res.ok.injEq] at h
      subst h
      cases i with
      | zero => simp at he; subst he; exact ⟨a, rfl, hb⟩
      | succ i => simpa using ih bs hbs i e (by simpa using he)
  obtain ⟨j, h1, h2⟩ := key _ _ h i e he
  rw [List.getElem?_range] at h1
  · cases h1; exact h2
  · by_contra hn
    rw [List.getElem?_eq_none (by simpa using hn)] at h1
    cases h1

theorem processResponse_dealer (E : Env F G) (d : Dkg F G) (r : Response) (k : F) :
    (d.processResponse E r k).1.dealer = d.dealer ∨
      ∃ v, d.verifiers.get d.index = some v := by
  unfold Dkg.processResponse
  split
  · exact Or.inl rfl
  · rename_i v hv
    split
    · exact Or.inl rfl
    · exact Or.inl rfl
    · simp only
      split
      · exact Or.inl rfl
      · rename_i hi
        simp only [ne_eq, not_not] at hi
        exact Or.inr ⟨v, by rw [← hi]; exact hv⟩

theorem qStep_own (E : Env F G) (hl : Lin F E.suite.base) (hP : E.prims.Lawful)
    (d : Dkg F G) (hC : ∀ dl ∈ d.dealer.deals, E.codec.dec (E.codec.enc dl) = some dl)
    (hs : Setup E d) (h : OwnInv d)
    (c : QCall F G) (hc : ∀ dd k, c = .deal dd k → dd.index ≠ d.index) : OwnInv (qStep E d c) := by
  cases c with
  | deals dh k vk =>
    show OwnInv (d.deals E dh k vk).1
    unfold Dkg.deals
    split
    · exact h
    · exact h
    · rename_i encs hm
      refine dealsLoop_own E hl hP dh k vk encs _ d hC ?_ [] hs h
      intro i e he
      exact mapM_range_get _ _ _ hm i e he
  | deal dd k =>
    have hne := hc dd k rfl
    refine h.evolves (processDeal_evolves E d dd k) ?_ (processDeal_dealer E d dd k)
    intro hn
    show (d.processDeal E dd k).1.verifiers.get d.index = none
    rcases processDeal_cases E d dd k with (⟨e, h⟩ | h) | ⟨pub, v0, v1, resp, hp, hn, hv0, hv1, h⟩
      <;> rw [h]
    · exact hn
    · exact hn
    · show (d.verifiers.insert dd.index _).get d.index = none
      rw [AMap.get_insert, if_neg (fun he => hne he.symm)]; assumption
  | response r k =>
    refine h.keeps (processResponse_keeps E d r k) ?_
    intro hne
    rcases processResponse_dealer E d r k with h1 | h1
    · exact Or.inl (by rw [← h1]; exact hne)
    · exact Or.inr h1
  | justification j =>
    refine h.keeps (processJustification_keeps E d j) ?_
    intro hne
    refine Or.inl ?_
    have : (d.processJustification E j).1.dealer = d.dealer := by
      unfold Dkg.processJustification; split <;> rfl
    rw [← this]; exact hne
  | timeout => exact h.keeps (setTimeout_keeps E d) Or.inl
  | ownCommits k =>
    refine h.keeps (secretCommits_keeps E d k) ?_
    intro hne
    refine Or.inl ?_
    have : (d.secretCommits E.suite k).1.dealer = d.dealer := by
      unfold Dkg.secretCommits
      split
      · rfl
      · split <;> rfl
    rw [← this]; exact hne
  | commits ord sc k =>
    refine h.keeps (processSecretCommits_keeps E ord d sc k) ?_
    intro hne
    refine Or.inl ?_
    have : (d.processSecretCommits E ord sc k).1.dealer = d.dealer := by
      rcases processSecretCommits_cases E ord d sc k with ⟨h, -⟩ | ⟨_, _, _, -, -, -, -, -, -, -, h⟩ <;>
        rw [h]
    rw [← this]; exact hne
  | complaint ord cc k =>
    refine h.keeps (processComplaintCommits_keeps E ord d cc k) ?_
    intro hne
    refine Or.inl ?_
    have : (d.processComplaintCommits E ord cc k).1.dealer = d.dealer := by
      rcases processComplaintCommits_cases E ord d cc k with ⟨h | ⟨v, hv, h⟩, -⟩ |
        ⟨_, v, _, _, _, -, -, -, hv, -, -, -, -, -, rc, -, -, -, -, -, h⟩ <;> rw [h] <;> rfl
    rw [← this]; exact hne
  | reconstruct ord rc =>
    refine h.keeps (processReconstructCommits_keeps E ord d rc) ?_
    intro hne
    refine Or.inl ?_
    have : (d.processReconstructCommits E ord rc).1.dealer = d.dealer := by
      rcases processReconstructCommits_cases E ord d rc with (h | ⟨arr, h, -⟩) |
        ⟨_, _, _, -, -, -, -, -, -, -, -, h⟩ <;> rw [h]
    rw [← this]; exact hne

theorem own_new {E : Env F G} {x : F} {pubs : List G} {t : Nat} {secret : F}
    {fD gD : List F} {d : Dkg F G} (h : newDistKeyGenerator E x pubs t secret fD gD = .ok d) :
    OwnInv d := by
  obtain ⟨h1, h2, h3, h4, h5, h6, h7, -⟩ := newDistKeyGenerator_ok h
  obtain ⟨f, g, -, -, -, -, -, -, g1, -, -, g4, -, -, g7, -, -, g10⟩ := newDealer_ok h2
  refine ⟨?_, ?_⟩
  · intro v hv; rw [h7] at hv; cases hv
  · intro hne; rw [g10] at hne; exact absurd rfl hne

theorem qRun_inv (E : Env F G) (hl : Lin F E.suite.base) (hP : E.prims.Lawful)
    (d : Dkg F G) (hC : ∀ dl ∈ d.dealer.deals, E.codec.dec (E.codec.enc dl) = some dl)
    (hs : Setup E d) (h : OwnInv d)
    (cs : List (QCall F G)) (hcs : NoForeignOwn d.index cs) :
    Setup E (qRun E d cs) ∧ OwnInv (qRun E d cs) := by
  induction cs generalizing d with
  | nil => exact ⟨hs, h⟩
  | cons c cs ih =>
    have he := qStep_evolves E d c
    refine ih (qStep E d c) (by rw [he.dealer.deals]; exact hC) (hs.step he) (qStep_own E hl hP d hC hs h c ?_) ?_
    · rintro dd k rfl; exact hcs dd k (by simp)
    · intro dd k hm; rw [he.index]; exact hcs dd k (by simp [hm])

/-! ### The commitments -/

/-- `check` in plain terms. -/
theorem check_iff (B : G) (p : PubPoly G) (s : Share F) (b : Bool) :
    p.check B s = .ok b ↔ p.commits ≠ [] ∧
      (b = true ↔ pointVal p.commits ((s.i + 1 : Nat) : F) = s.v • p.b.getD B) := by
  unfold PubPoly.check
  rw [Props.C06_pub_eval]
  by_cases hne : p.commits = []
  · simp [hne]
  · rw [if_neg hne]
    simp only [Res.bind_ok, Res.ok.injEq]
    constructor
    · rintro rfl; exact ⟨hne, by simp⟩
    · rintro ⟨-, h⟩
      cases b <;> simp_all

/-- The commitments that were not reconstructed match the deal of this participant. -/
def CommitInv (E : Env F G) (d : Dkg F G) : Prop :=
  ∀ j p, d.commitments.get j = some p → d.reconstructed.get j = none →
    ∃ dl, HoldsDeal d j dl ∧ p.commits ≠ [] ∧
      pointVal p.commits ((d.index + 1 : Nat) : F) = dl.secShare.v • E.suite.base

theorem CommitInv.keeps {E : Env F G} {d d' : Dkg F G} (h : CommitInv E d) (he : Evolves E d d')
    (hc : ∀ j p, d'.commitments.get j = some p → d.commitments.get j = some p)
    (hr : ∀ j, d'.reconstructed.get j = none → d.reconstructed.get j = none) : CommitInv E d' := by
  intro j p hp hn
  obtain ⟨dl, h1, h2, h3⟩ := h j p (hc j p hp) (hr j hn)
  exact ⟨dl, HoldsDeal.step he h1, h2, by rw [he.index]; exact h3⟩

theorem get_remove {α : Type} (m : AMap α) (k j : Nat) :
    (m.remove k).get j = if j = k then none else m.get j := by
  induction m with
  | nil => simp [AMap.remove, AMap.get]
  | cons e m ih =>
    obtain ⟨i, v⟩ := e
    unfold AMap.remove at ih ⊢
    rw [List.filter_cons, AMap.get_cons]
    by_cases hi : i = k
    · subst hi
      simp only [ne_eq, not_true, decide_false, Bool.false_eq_true, if_false, ih]
      by_cases hj : j = i
      · simp [hj]
      · rw [if_neg hj, if_neg hj, if_neg hj]
    · simp only [ne_eq, hi, not_false_eq_true, decide_true, if_true]
      rw [AMap.get_cons, ih]
      by_cases hj : j = i
      · subst hj; simp [hi]
      · rw [if_neg hj]
        by_cases hjk : j = k
        · simp [hjk]
        · rw [if_neg hjk, if_neg hjk, if_neg hj]

theorem dealsLoop_cr (E : Env F G) (encs : List (EncryptedDeal G)) (vk : F) (l : List Nat)
    (d : Dkg F G) (dd : AMap (Deal G)) :
    (Dkg.dealsLoop E encs vk l d dd).1.commitments = d.commitments ∧
    (Dkg.dealsLoop E encs vk l d dd).1.reconstructed = d.reconstructed := by
  have hpd : ∀ (d : Dkg F G) (dd : Deal G), (d.processDeal E dd vk).1.commitments = d.commitments ∧
      (d.processDeal E dd vk).1.reconstructed = d.reconstructed := by
    intro d dd
    rcases processDeal_cases E d dd vk with (⟨e, h⟩ | h) | ⟨_, _, _, _, -, -, -, -, h⟩ <;> rw [h] <;>
      exact ⟨rfl, rfl⟩
  induction l generalizing d dd with
  | nil => exact ⟨rfl, rfl⟩
  | cons i l ih =>
    unfold Dkg.dealsLoop
    split
    · exact ⟨rfl, rfl⟩
    · rename_i e he
      split
      · split
        · exact ih d dd
        · have h0 := hpd d ⟨d.index, e⟩
          split
          · rename_i d' r hd'
            rw [hd'] at h0
            split
            · exact h0
            · have := ih (approveOwn d') dd
              exact ⟨this.1.trans h0.1, this.2.trans h0.2⟩
          · rename_i d' r hd'; rw [hd'] at h0; exact h0
          · rename_i d' hd'; rw [hd'] at h0; exact h0
      · exact ih _ _

theorem processResponse_cr (E : Env F G) (d : Dkg F G) (r : Response) (k : F) :
    (d.processResponse E r k).1.commitments = d.commitments ∧
    (d.processResponse E r k).1.reconstructed = d.reconstructed := by
  unfold Dkg.processResponse
  split
  · exact ⟨rfl, rfl⟩
  · split
    · exact ⟨rfl, rfl⟩
    · exact ⟨rfl, rfl⟩
    · simp only
      split
      · exact ⟨rfl, rfl⟩
      · split
        · exact ⟨rfl, rfl⟩
        · exact ⟨rfl, rfl⟩
        · exact ⟨rfl, rfl⟩
        · split <;> exact ⟨rfl, rfl⟩

/-- The dealer's data that fits the own deal. -/
def DealerOk (E : Env F G) (d : Dkg F G) : Prop :=
  d.dealer.secretCommits ≠ [] ∧ d.participants ≠ [] ∧
  ∀ dl, d.dealer.deals[d.index]? = some dl →
    pointVal d.dealer.secretCommits ((d.index + 1 : Nat) : F) = dl.secShare.v • E.suite.base

theorem DealerOk.step {E : Env F G} {d d' : Dkg F G} (h : DealerOk E d) (he : Evolves E d d') :
    DealerOk E d' := by
  unfold DealerOk
  rw [he.dealer.secretCommits, he.participants, he.dealer.deals, he.index]
  exact h

theorem secretCommits_new {E : Env F G} {x : F} {pubs : List G} {t : Nat} {secret : F}
    {fD gD : List F} {d : Dkg F G} (h : newDistKeyGenerator E x pubs t secret fD gD = .ok d) :
    d.dealer.secretCommits ≠ [] := by
  obtain ⟨h1, h2, h3, h4, h5, h6, h7, -⟩ := newDistKeyGenerator_ok h
  obtain ⟨f, g, hfl, hgl, -, hf, -, hv, g1, -, -, g4, -, g6, g7, -, g9, g10⟩ := newDealer_ok h2
  rw [g6, hf]; simp

theorem dealerOk_new {E : Env F G} (hl : Lin F E.suite.base) {x : F} {pubs : List G} {t : Nat} {secret : F}
    {fD gD : List F} {d : Dkg F G} (h : newDistKeyGenerator E x pubs t secret fD gD = .ok d) :
    DealerOk E d := by
  obtain ⟨h1, h2, h3, h4, h5, h6, h7, -⟩ := newDistKeyGenerator_ok h
  obtain ⟨f, g, hfl, hgl, -, hf, -, hv, g1, -, -, g4, -, g6, g7, -, g9, g10⟩ := newDealer_ok h2
  have hv' := hv
  simp only [validT, Bool.and_eq_true, decide_eq_true_eq] at hv'
  refine ⟨?_, ?_, ?_⟩
  · rw [g6, hf]; simp
  · rw [h5]; rintro rfl; simp at hv'; omega
  · intro dl hdl
    rw [g9, List.getElem?_map] at hdl
    cases hr : (List.range pubs.length)[d.index]? with
    | none => rw [hr] at hdl; cases hdl
    | some j =>
      rw [hr] at hdl
      have hj : j = d.index := by
        rw [List.getElem?_eq_some_iff] at hr
        obtain ⟨_, hr⟩ := hr
        simpa using hr.symm
      subst hj
      simp only [Option.map_some, Option.some.injEq] at hdl
      rw [← hdl, g6, pointVal_map_smul _ hl]
      simp only
      rw [eval_v]

theorem qStep_commit (E : Env F G) (d : Dkg F G) (hs : Setup E d) (ho : OwnInv d)
    (hd : DealerOk E d) (h : CommitInv E d) (c : QCall F G) : CommitInv E (qStep E d c) := by
  have he := qStep_evolves E d c
  cases c with
  | deals dh k vk =>
    refine h.keeps he ?_ ?_
    · intro j p hp
      have : (qStep E d (.deals dh k vk)).commitments = d.commitments := by
        show (d.deals E dh k vk).1.commitments = _
        unfold Dkg.deals
        split
        · rfl
        · rfl
        · exact (dealsLoop_cr E _ _ _ _ _).1
      rw [← this]; exact hp
    · intro j hp
      have : (qStep E d (.deals dh k vk)).reconstructed = d.reconstructed := by
        show (d.deals E dh k vk).1.reconstructed = _
        unfold Dkg.deals
        split
        · rfl
        · rfl
        · exact (dealsLoop_cr E _ _ _ _ _).2
      rw [← this]; exact hp
  | deal dd k =>
    have : (qStep E d (.deal dd k)).commitments = d.commitments ∧
        (qStep E d (.deal dd k)).reconstructed = d.reconstructed := by
      show (d.processDeal E dd k).1.commitments = _ ∧ (d.processDeal E dd k).1.reconstructed = _
      rcases processDeal_cases E d dd k with (⟨e, h⟩ | h) | ⟨_, _, _, _, -, -, -, -, h⟩ <;> rw [h] <;>
        exact ⟨rfl, rfl⟩
    exact h.keeps he (fun j p hp => by rw [← this.1]; exact hp) (fun j hp => by rw [← this.2]; exact hp)
  | response r k =>
    have := processResponse_cr E d r k
    exact h.keeps he (fun j p hp => by rw [← this.1]; exact hp) (fun j hp => by rw [← this.2]; exact hp)
  | justification j =>
    have : (qStep E d (.justification j)).commitments = d.commitments ∧
        (qStep E d (.justification j)).reconstructed = d.reconstructed := by
      show (d.processJustification E j).1.commitments = _ ∧ (d.processJustification E j).1.reconstructed = _
      unfold Dkg.processJustification
      split <;> exact ⟨rfl, rfl⟩
    exact h.keeps he (fun j p hp => by rw [← this.1]; exact hp) (fun j hp => by rw [← this.2]; exact hp)
  | timeout => exact h.keeps he (fun _ _ hp => hp) (fun _ hp => hp)
  | ownCommits k =>
    intro j p hp hn
    have hprev : d.commitments.get j = some p → d.reconstructed.get j = none →
        ∃ dl, HoldsDeal (qStep E d (.ownCommits k)) j dl ∧ p.commits ≠ [] ∧
        pointVal p.commits (((qStep E d (.ownCommits k)).index + 1 : Nat) : F) =
          dl.secShare.v • E.suite.base := by
      intro h1 h2
      obtain ⟨dl, g1, g2, g3⟩ := h j p h1 h2
      exact ⟨dl, HoldsDeal.step he g1, g2, by rw [he.index]; exact g3⟩
    have hrec : (qStep E d (.ownCommits k)).reconstructed = d.reconstructed := by
      show (d.secretCommits E.suite k).1.reconstructed = _
      unfold Dkg.secretCommits
      split
      · rfl
      · split <;> rfl
    rw [hrec] at hn
    by_cases hcert : d.dealer.aggregator.dealCertified = true
    · have hcm : d.dealer.commits = some d.dealer.secretCommits := by
        unfold Dealer.commits
        rw [if_neg (by simp [hcert, dealCertified_enough hcert])]
      have hst : qStep E d (.ownCommits k) =
          setCommit d d.index ⟨some E.suite.base, d.dealer.secretCommits⟩ := by
        show (d.secretCommits E.suite k).1 = _
        unfold Dkg.secretCommits
        rw [if_neg (by simp [hcert])]
        simp only [hcm]
      have hp' : (d.commitments.insert d.index ⟨some E.suite.base, d.dealer.secretCommits⟩).get j =
          some p := by
        rw [hst] at hp; exact hp
      rw [AMap.get_insert] at hp'
      by_cases hj : j = d.index
      · subst hj
        rw [if_pos rfl] at hp'
        cases hp'
        have hne : d.dealer.aggregator.responses ≠ [] := by
          intro h0
          unfold Aggregator.dealCertified at hcert
          simp only [Bool.and_eq_true, Bool.not_eq_true', Bool.or_eq_false_iff,
            decide_eq_false_iff_not, not_lt, Nat.le_zero, List.length_eq_zero_iff,
            List.filter_eq_nil_iff, List.mem_range, Bool.not_eq_false] at hcert
          have := hcert.2.1 0 (by
            rw [hs.aggVerifiers]; exact List.length_pos_iff_ne_nil.2 hd.2.1)
          rw [h0] at this
          simp [AMap.contains, AMap.get] at this
        obtain ⟨v, hv⟩ := ho.resp hne
        obtain ⟨dl, g1, g2⟩ := ho.own v hv
        exact ⟨dl, HoldsDeal.step he g1, hd.1, by rw [he.index]; exact hd.2.2 dl g2⟩
      · rw [if_neg hj] at hp'
        exact hprev hp' hn
    · have hst : qStep E d (.ownCommits k) = d := by
        show (d.secretCommits E.suite k).1 = _
        unfold Dkg.secretCommits
        rw [if_pos (by simpa using hcert)]
      rw [hst] at hp
      exact hprev hp hn
  | commits ord sc k =>
    rcases processSecretCommits_cases E ord d sc k with ⟨h1, -⟩ |
      ⟨pub, v, deal, hp, hq, hv, hsid, hsig, hdeal, hck, h1⟩
    · show CommitInv E (d.processSecretCommits E ord sc k).1
      rw [h1]; exact h
    · have hst : qStep E d (.commits ord sc k) =
          setCommit d sc.index ⟨some E.suite.base, sc.commitments⟩ := by
        show (d.processSecretCommits E ord sc k).1 = _; rw [h1]
      intro j p hp' hn
      rw [hst] at hp' hn
      change (d.commitments.insert sc.index _).get j = some p at hp'
      change d.reconstructed.get j = none at hn
      rw [AMap.get_insert] at hp'
      by_cases hj : j = sc.index
      · subst hj
        rw [if_pos rfl] at hp'
        cases hp'
        obtain ⟨a, dl, ha, hadl, hi, -, -⟩ := hs.holds hv
        have hdl : deal = dl := by
          unfold Verifier.deal at hdeal
          rw [ha] at hdeal
          simp only at hdeal
          split at hdeal
          · cases hdeal
          · rw [hadl] at hdeal; cases hdeal; rfl
        subst hdl
        obtain ⟨g1, g2⟩ := (check_iff _ _ _ _).1 hck
        refine ⟨deal, HoldsDeal.step he ⟨v, a, hv, ha, hadl⟩, g1, ?_⟩
        rw [he.index, ← hi]
        exact g2.1 rfl
      · rw [if_neg hj] at hp'
        obtain ⟨dl, g1, g2, g3⟩ := h j p hp' hn
        exact ⟨dl, HoldsDeal.step he g1, g2, by rw [he.index]; exact g3⟩
  | complaint ord cc k =>
    refine h.keeps he ?_ ?_
    · intro j p hp
      change (d.processComplaintCommits E ord cc k).1.commitments.get j = some p at hp
      rcases processComplaintCommits_cases E ord d cc k with ⟨h | ⟨v, hv, h⟩, -⟩ |
        ⟨_, v, _, _, _, -, -, -, hv, -, -, -, -, -, rc, -, -, -, -, -, h⟩ <;> rw [h] at hp
      · exact hp
      · exact hp
      · change (d.commitments.remove cc.dealerIndex).get j = some p at hp
        rw [get_remove] at hp
        split at hp
        · cases hp
        · exact hp
    · intro j hp
      change (d.processComplaintCommits E ord cc k).1.reconstructed.get j = none at hp
      rcases processComplaintCommits_cases E ord d cc k with ⟨h | ⟨v, hv, h⟩, -⟩ |
        ⟨_, v, _, _, _, -, -, -, hv, -, -, -, -, -, rc, -, -, -, -, -, h⟩ <;> rw [h] at hp <;> exact hp
  | reconstruct ord rc =>
    rcases processReconstructCommits_cases E ord d rc with (h1 | ⟨arr, h1, -⟩) |
        ⟨pub, arr, pri, hr, hcn, hp, hsig, harr, hscan, ht, hpri, h1⟩
    · exact h.keeps he
        (fun j p hp => by
          change (d.processReconstructCommits E ord rc).1.commitments.get j = some p at hp
          rw [h1] at hp; exact hp)
        (fun j hp => by
          change (d.processReconstructCommits E ord rc).1.reconstructed.get j = none at hp
          rw [h1] at hp; exact hp)
    · exact h.keeps he
        (fun j p hp => by
          change (d.processReconstructCommits E ord rc).1.commitments.get j = some p at hp
          rw [h1] at hp; exact hp)
        (fun j hp => by
          change (d.processReconstructCommits E ord rc).1.reconstructed.get j = none at hp
          rw [h1] at hp; exact hp)
    · intro j p hp' hn
      change (d.processReconstructCommits E ord rc).1.commitments.get j = some p at hp'
      change (d.processReconstructCommits E ord rc).1.reconstructed.get j = none at hn
      rw [h1] at hp' hn
      change (d.reconstructed.insert rc.dealerIndex true).get j = none at hn
      change (d.commitments.insert rc.dealerIndex _).get j = some p at hp'
      rw [AMap.get_insert] at hn hp'
      by_cases hj : j = rc.dealerIndex
      · rw [if_pos hj] at hn; cases hn
      · rw [if_neg hj] at hn hp'
        obtain ⟨dl, g1, g2, g3⟩ := h j p hp' hn
        exact ⟨dl, HoldsDeal.step he g1, g2, by rw [he.index]; exact g3⟩

theorem qRun_commit (E : Env F G) (hl : Lin F E.suite.base) (hP : E.prims.Lawful)
    (d : Dkg F G) (hC : ∀ dl ∈ d.dealer.deals, E.codec.dec (E.codec.enc dl) = some dl)
    (hs : Setup E d) (ho : OwnInv d)
    (hd : DealerOk E d) (h : CommitInv E d) (cs : List (QCall F G)) (hcs : NoForeignOwn d.index cs) :
    CommitInv E (qRun E d cs) := by
  induction cs generalizing d with
  | nil => exact h
  | cons c cs ih =>
    have he := qStep_evolves E d c
    refine ih (qStep E d c) (by rw [he.dealer.deals]; exact hC) (hs.step he) (qStep_own E hl hP d hC hs ho c ?_) (hd.step he)
      (qStep_commit E d hs ho hd h c) ?_
    · rintro dd k rfl; exact hcs dd k (by simp)
    · intro dd k hm; rw [he.index]; exact hcs dd k (by simp [hm])

end

end Kyber.DkgR
