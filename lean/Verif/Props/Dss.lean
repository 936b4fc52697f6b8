/-
Properties C17, C18: distributed signatures.
-/
import Verif.Lemmas.Dss
import Verif.Spec.Dss
import Verif.Spec.Toy
import Verif.Props.Shamir
import Verif.Props.Signatures

set_option linter.unusedSectionVars false

namespace Kyber.Props

open Kyber Kyber.Poly Kyber.Schnorr Kyber.Dss Kyber.Spec

variable {F G : Type} [Field F] [AddCommGroup G] [DecidableEq G]

/-! ## C18: bad partial signatures never enter -/

section

variable [SMul F G]

/-- C18: exactly when `process_partial_sig` stores a partial signature, and what it stores. -/
theorem C18_accepts_iff (S : Suite F G) (d d' : DSS F G) (ps : PartialSig F) :
    processPartialSig S d ps = .ok d' ↔
      ∃ (pub R A : G),
        -- the index is that of a participant
        d.participants[ps.partialShare.i]? = some pub ∧
        -- the message is signed by that participant
        verify S pub (S.hash (S.hash (S.encS ps.partialShare.v ++ u32le ps.partialShare.i) ++
          ps.sessionId)) ps.signature = .ok () ∧
        -- for this session
        ps.sessionId = d.sessionId ∧
        -- nothing was received for this index before
        d.partialsIdx.contains ps.partialShare.i = false ∧
        -- the value is right
        d.random.commits.head? = some R ∧ d.long.commits.head? = some A ∧
        ps.partialShare.v • S.base =
          pointVal d.random.commits ((ps.partialShare.i + 1 : Nat) : F) +
          dssChallenge S R A d.msg • pointVal d.long.commits ((ps.partialShare.i + 1 : Nat) : F) ∧
        -- the new state
        d' = { d with
          partialsIdx := d.partialsIdx.insert ps.partialShare.i true
          partials := d.partials ++ [some ps.partialShare] } :=
  processPartialSig_ok_iff S d d' ps

/-- C18: calls never change the parameters of the session. -/
theorem C18_parameters_fixed (S : Suite F G) (d : DSS F G) (calls : List (DssCall F)) :
    let d' := dssRun S d calls
    d'.participants = d.participants ∧ d'.t = d.t ∧ d'.long = d.long ∧ d'.random = d.random ∧
      d'.msg = d.msg ∧ d'.sessionId = d.sessionId ∧ d'.index = d.index := by
  induction calls generalizing d with
  | nil => simp [dssRun]
  | cons c calls ih =>
    have hstep : let d' := dssStep S d c
        d'.participants = d.participants ∧ d'.t = d.t ∧ d'.long = d.long ∧ d'.random = d.random ∧
        d'.msg = d.msg ∧ d'.sessionId = d.sessionId ∧ d'.index = d.index := by
      cases c with
      | own k =>
        simp only [dssStep]
        split
        · rename_i r hr
          obtain ⟨_, _, _, _, _, h | h⟩ := partialSig_ok S k d r.2 r.1 hr
          · rw [h]; simp
          · rw [h.2]; simp
        · simp
      | recv ps =>
        simp only [dssStep]
        split
        · rename_i d' hr
          obtain ⟨_, _, _, _, _, _, _, _, _, _, rfl⟩ := (processPartialSig_ok_iff S d d' ps).1 hr
          simp
        · simp
    have := ih (dssStep S d c)
    simp only [dssRun, List.foldl_cons] at this ⊢
    obtain ⟨a1, a2, a3, a4, a5, a6, a7⟩ := this
    obtain ⟨b1, b2, b3, b4, b5, b6, b7⟩ := hstep
    exact ⟨a1.trans b1, a2.trans b2, a3.trans b3, a4.trans b4, a5.trans b5, a6.trans b6,
      a7.trans b7⟩

/-- C18: after any sequence of calls every stored partial signature is correct, provided the
owner's own two shares match the commitments. -/
theorem C18_stored_correct (S : Suite F G) (secret : F) (participants : List G)
    (long random : DistKeyShare F G) (msg : Bytes) (t : Nat) (d : DSS F G)
    (hl : Lin F S.base) (hnew : newDss S secret participants long random msg t = .ok d)
    (R A : G) (hR : random.commits.head? = some R) (hA : long.commits.head? = some A)
    (hlong : long.share.v • S.base = pointVal long.commits ((d.index + 1 : Nat) : F))
    (hrandom : random.share.v • S.base = pointVal random.commits ((d.index + 1 : Nat) : F))
    (calls : List (DssCall F)) (s : Share F) (hs : some s ∈ (dssRun S d calls).partials) :
    s.i < participants.length ∧
    s.v • S.base = pointVal random.commits ((s.i + 1 : Nat) : F) +
      dssChallenge S R A msg • pointVal long.commits ((s.i + 1 : Nat) : F) := by
  have hd : d.index < participants.length ∧ d.participants = participants ∧ d.long = long ∧
      d.random = random ∧ d.msg = msg ∧ d.partials = [] := by
    unfold newDss at hnew
    simp only at hnew
    split at hnew
    · cases hnew
    · rename_i i hi
      simp only [Res.ok.injEq] at hnew
      subst hnew
      exact ⟨(List.findIdx?_eq_some_iff_getElem.1 hi).1, rfl, rfl, rfl, rfl, rfl⟩
  obtain ⟨hi, rfl, rfl, rfl, rfl, h0⟩ := hd
  have h0' : ∀ s, some s ∈ d.partials → s.i < d.participants.length ∧
    s.v • S.base = pointVal d.random.commits ((s.i + 1 : Nat) : F) +
      dssChallenge S R A d.msg • pointVal d.long.commits ((s.i + 1 : Nat) : F) := by
    intro s hs; rw [h0] at hs; cases hs
  clear h0 hnew
  induction calls generalizing d with
  | nil => exact h0' s hs
  | cons c calls ih =>
    obtain ⟨e1, e2, e3, e4, e5, e6, e7⟩ := C18_parameters_fixed S d [c]
    simp only [dssRun, List.foldl_cons, List.foldl_nil] at e1 e2 e3 e4 e5 e6 e7
    have := ih (dssStep S d c) (by simpa [dssRun] using hs) (by rw [e1, e7]; exact hi)
      (by rw [e3]; exact hA) (by rw [e3, e7]; exact hlong) (by rw [e4]; exact hR)
      (by rw [e4, e7]; exact hrandom)
    rw [e1, e3, e4, e5] at this
    apply this
    intro s' hs'
    cases c with
    | own k =>
      simp only [dssStep] at hs'
      split at hs'
      · rename_i r hr
        obtain ⟨R', A', hR', hA', hps, h | ⟨-, h⟩⟩ := partialSig_ok S k d r.2 r.1 hr
        · rw [h] at hs'; exact h0' s' hs'
        · rw [h] at hs'
          simp only [List.mem_append, List.mem_singleton, Option.some.injEq] at hs'
          rcases hs' with hs' | rfl
          · exact h0' s' hs'
          · rw [hR', Option.some.injEq] at hR
            rw [hA', Option.some.injEq] at hA
            subst hR hA
            rw [hps]
            refine ⟨hi, ?_⟩
            simp only [hl.add, hl.mul, hlong, hrandom]
            rw [add_comm]; rfl
      · exact h0' s' hs'
    | recv ps =>
      simp only [dssStep] at hs'
      split at hs'
      · rename_i d' hr
        obtain ⟨pub, R', A', hp, -, -, -, hR', hA', heq, rfl⟩ :=
          (processPartialSig_ok_iff S d d' ps).1 hr
        simp only [List.mem_append, List.mem_singleton, Option.some.injEq] at hs'
        rcases hs' with hs' | rfl
        · exact h0' s' hs'
        · rw [hR', Option.some.injEq] at hR
          rw [hA', Option.some.injEq] at hA
          subst hR hA
          exact ⟨(List.getElem?_eq_some_iff.1 hp).1, heq⟩
      · exact h0' s' hs'

/-- C18, the full statement on indices: after any sequence of calls the stored partial signatures
have pairwise distinct indices. -/
def C18_distinct_statement : Prop :=
  ∀ (F G : Type) [Field F] [AddCommGroup G] [Module F G] [DecidableEq G] (S : Suite F G)
    (secret : F) (participants : List G) (long random : DistKeyShare F G) (msg : Bytes) (t : Nat)
    (d : DSS F G), newDss S secret participants long random msg t = .ok d →
    ∀ calls, DistinctIndices (dssRun S d calls).partials

/-- C18 is violated: if the owner's own partial signature arrives over the network (for example
after a restart) before `partial_sig` is called, it is stored twice. The witness is participant 0
of the toy suite with constant sharing polynomials. -/
theorem C18_violated_duplicate : ¬ C18_distinct_statement := by
  intro H
  let long : DistKeyShare (ZMod 11) (ZMod 11) := ⟨⟨0, 3⟩, [6]⟩
  let random : DistKeyShare (ZMod 11) (ZMod 11) := ⟨⟨0, 4⟩, [8]⟩
  let d : DSS (ZMod 11) (ZMod 11) :=
    ⟨5, 10, 0, [10], 2, long, random, [1], [], [], false, Dss.sessionId Toy.suite long random⟩
  have h1 : newDss Toy.suite 5 [10] long random [1] 2 = .ok d := rfl
  have h2 := H _ _ Toy.suite 5 [10] long random [1] 2 d h1
    [.recv (match partialSig Toy.suite 1 d with
      | .ok r => r.1
      | _ => ⟨⟨0, 0⟩, [], []⟩), .own 1]
  revert h2
  unfold DistinctIndices
  decide +kernel

/-- C18, proved part: indices are distinct after every history in which no message with the
owner's own index is delivered before `partial_sig` has been called (the owner's index is either
never delivered, or only after an `own` call). -/
theorem C18_distinct_partial (S : Suite F G) (secret : F) (participants : List G)
    (long random : DistKeyShare F G) (msg : Bytes) (t : Nat) (d : DSS F G)
    (hnew : newDss S secret participants long random msg t = .ok d) (hR : random.commits ≠ [])
    (hA : long.commits ≠ []) (before after : List (DssCall F))
    (hbefore : ∀ ps, DssCall.recv ps ∈ before → ps.partialShare.i ≠ d.index)
    (hafter : after = [] ∨ ∃ k rest, after = .own k :: rest) :
    DistinctIndices (dssRun S d (before ++ after)).partials := by
  -- invariant: indices are distinct and recorded; if not yet signed, the own index is free
  let inv : DSS F G → Prop := fun d => DistinctIndices d.partials ∧
    (∀ s, some s ∈ d.partials → s.i ∈ d.partialsIdx.keys)
  have happ : ∀ (l : List (Option (Share F))) (s : Share F), DistinctIndices l →
      (∀ s', some s' ∈ l → s'.i ≠ s.i) → DistinctIndices (l ++ [some s]) := by
    intro l s h1 h2
    unfold DistinctIndices at *
    rw [List.filterMap_append, List.map_append, List.nodup_append]
    refine ⟨h1, by simp, ?_⟩
    intro a ha b hb
    simp only [List.mem_map, List.mem_filterMap, id] at ha
    obtain ⟨s', ⟨o, ho, rfl⟩, rfl⟩ := ha
    simp only [List.filterMap_cons, id, List.filterMap_nil, List.map_cons, List.map_nil,
      List.mem_singleton] at hb
    rw [hb]
    exact h2 s' ho
  have hrecv : ∀ (d : DSS F G) ps, inv d → inv (dssStep S d (.recv ps)) := by
    intro d ps hd
    simp only [dssStep]
    split
    · rename_i d' hr
      obtain ⟨_, _, _, _, _, _, hc, _, _, _, rfl⟩ := (processPartialSig_ok_iff S d d' ps).1 hr
      have hc' : ps.partialShare.i ∉ d.partialsIdx.keys := by
        rw [← AMap.get_eq_none]
        unfold AMap.contains at hc
        simpa using hc
      refine ⟨happ _ _ hd.1 fun s' hs' h => hc' (h ▸ hd.2 s' hs'), ?_⟩
      intro s hs
      simp only [List.mem_append, List.mem_singleton, Option.some.injEq] at hs
      rw [AMap.mem_keys_insert]
      rcases hs with hs | rfl
      · exact Or.inr (hd.2 s hs)
      · exact Or.inl rfl
    · exact hd
  have hown : ∀ (d : DSS F G) k, inv d → (d.signed = true ∨ d.index ∉ d.partialsIdx.keys) →
      inv (dssStep S d (.own k)) := by
    intro d k hd hfree
    simp only [dssStep]
    split
    · rename_i r hr
      obtain ⟨_, _, _, _, hps, h | ⟨hs0, h⟩⟩ := partialSig_ok S k d r.2 r.1 hr
      · rw [h]; exact hd
      · rw [h]
        have hfree' := hfree.resolve_left (by simp [hs0])
        refine ⟨happ _ _ hd.1 fun s' hs' h => hfree' ?_, ?_⟩
        · have := hd.2 s' hs'; rw [h, hps] at this; exact this
        · intro s hs
          simp only [List.mem_append, List.mem_singleton, Option.some.injEq] at hs
          rw [AMap.mem_keys_insert]
          rcases hs with hs | rfl
          · exact Or.inr (hd.2 s hs)
          · exact Or.inl (by rw [hps])
    · exact hd
  have hsigned : ∀ (d : DSS F G) c, d.signed = true → (dssStep S d c).signed = true := by
    intro d c hd
    cases c with
    | own k =>
      simp only [dssStep]
      split
      · rename_i r hr
        obtain ⟨_, _, _, _, _, h | ⟨hs0, h⟩⟩ := partialSig_ok S k d r.2 r.1 hr
        · rw [h]; exact hd
        · rw [h]
      · exact hd
    | recv ps =>
      simp only [dssStep]
      split
      · rename_i d' hr
        obtain ⟨_, _, _, _, _, _, hc, _, _, _, rfl⟩ := (processPartialSig_ok_iff S d d' ps).1 hr
        exact hd
      · exact hd
  -- second phase: already signed
  have hphase2 : ∀ (calls : List (DssCall F)) (d : DSS F G), inv d → d.signed = true →
      inv (dssRun S d calls) := by
    intro calls
    induction calls with
    | nil => intro d hd _; exact hd
    | cons c calls ih =>
      intro d hd hs
      have h2 : inv (dssStep S d c) := by
        cases c with
        | own k => exact hown d k hd (Or.inl hs)
        | recv ps => exact hrecv d ps hd
      exact ih _ h2 (hsigned d c hs)
  -- the own index is free until signed
  have hphase1 : ∀ (calls : List (DssCall F)) (d : DSS F G), inv d →
      (∀ ps, DssCall.recv ps ∈ calls → ps.partialShare.i ≠ d.index) →
      (d.signed = true ∨ d.index ∉ d.partialsIdx.keys) →
      inv (dssRun S d calls) ∧ ((dssRun S d calls).signed = true ∨
        (dssRun S d calls).index ∉ (dssRun S d calls).partialsIdx.keys) := by
    intro calls
    induction calls with
    | nil => intro d hd _ hf; exact ⟨hd, hf⟩
    | cons c calls ih =>
      intro d hd hc hf
      have hidx : (dssStep S d c).index = d.index := by
        have := (C18_parameters_fixed S d [c]).2.2.2.2.2.2
        simpa [dssRun] using this
      refine ih (dssStep S d c) ?_ ?_ ?_
      · cases c with
        | own k => exact hown d k hd hf
        | recv ps => exact hrecv d ps hd
      · intro ps hps; rw [hidx]; exact hc ps (List.mem_cons_of_mem _ hps)
      · rcases hf with hf | hf
        · exact Or.inl (hsigned d c hf)
        · cases c with
          | own k =>
            simp only [dssStep]
            split
            · rename_i r hr
              obtain ⟨_, _, _, _, _, h | ⟨hs0, h⟩⟩ := partialSig_ok S k d r.2 r.1 hr
              · rw [h]; exact Or.inr hf
              · rw [h]; exact Or.inl rfl
            · exact Or.inr hf
          | recv ps =>
            right
            have hne := hc ps (List.mem_cons_self ..)
            rw [hidx]
            simp only [dssStep]
            split
            · rename_i d' hr
              obtain ⟨_, _, _, _, _, _, _, _, _, _, rfl⟩ := (processPartialSig_ok_iff S d d' ps).1 hr
              rw [AMap.mem_keys_insert]
              rintro (h | h)
              · exact hne h.symm
              · exact hf h
            · exact hf
  have h0 : inv d ∧ (d.signed = true ∨ d.index ∉ d.partialsIdx.keys) ∧
      d.random = random ∧ d.long = long := by
    unfold newDss at hnew
    simp only at hnew
    split at hnew
    · cases hnew
    · simp only [Res.ok.injEq] at hnew
      subst hnew
      refine ⟨⟨by simp [DistinctIndices], by simp⟩, Or.inr (by simp [AMap.keys]), rfl, rfl⟩
  obtain ⟨hi1, hf1⟩ := hphase1 before d h0.1 hbefore h0.2.1
  have hrun : dssRun S d (before ++ after) = dssRun S (dssRun S d before) after := by
    simp [dssRun]
  rw [hrun]
  rcases hafter with rfl | ⟨k, rest, rfl⟩
  · exact hi1.1
  · have hpar := C18_parameters_fixed S d before
    simp only at hpar
    have hinv2 := hown _ k hi1 hf1
    have hs2 : (dssStep S (dssRun S d before) (.own k)).signed = true := by
      simp only [dssStep]
      have hR' : ∃ R, (dssRun S d before).random.commits.head? = some R := by
        rw [hpar.2.2.2.1, h0.2.2.1]
        cases hc : random.commits with
        | nil => exact absurd hc hR
        | cons a l => exact ⟨a, rfl⟩
      have hA' : ∃ A, (dssRun S d before).long.commits.head? = some A := by
        rw [hpar.2.2.1, h0.2.2.2]
        cases hc : long.commits with
        | nil => exact absurd hc hA
        | cons a l => exact ⟨a, rfl⟩
      obtain ⟨R, hR'⟩ := hR'
      obtain ⟨A, hA'⟩ := hA'
      unfold partialSig
      rw [hashSig_ok.2 ⟨R, A, hR', hA', rfl⟩]
      simp only [Res.bind_ok]
      by_cases hsg : (dssRun S d before).signed = true
      · simp [hsg]
      · simp [hsg]
    exact (hphase2 rest _ hinv2 hs2).1

/-! ## C17: any t partial signatures give the group signature -/

/-- C17: the long-term secret `a` and the random secret `r` are shared with polynomials of `t`
coefficients, the owner's shares are right. After any sequence of calls, if partial signatures
of at least `t` different indices are stored, `signature` returns `R || r + h a`. The bytes depend
neither on which partial signatures were received, nor on their order, nor on the owner. -/
theorem C17_signature (q : Nat) [CharP F q] (ord : MapOrder) (S : Suite F G)
    (hl : Lin F S.base) (hB : ∀ s : F, s • S.base = 0 → s = 0)
    (secret : F) (participants : List G) (hn : participants.length ≤ q)
    (a r : F) (as rs : List F) (t : Nat) (has : (a :: as).length = t) (hrs : (r :: rs).length = t)
    (longShare randomShare : Share F) (msg : Bytes) (d : DSS F G)
    (hnew : newDss S secret participants ⟨longShare, (a :: as).map (· • S.base)⟩
      ⟨randomShare, (r :: rs).map (· • S.base)⟩ msg t = .ok d)
    (hlong : longShare.v = polyVal (a :: as) ((d.index + 1 : Nat) : F))
    (hrandom : randomShare.v = polyVal (r :: rs) ((d.index + 1 : Nat) : F))
    (calls : List (DssCall F)) (hcount : t ≤ (indices (dssRun S d calls).partials).card) :
    signature S ord (dssRun S d calls) =
      .ok (S.encG (r • S.base) ++
        S.encS (r + dssChallenge S (r • S.base) (a • S.base) msg * a)) := by
  have hcorr := C18_stored_correct S secret participants _ _ msg t d hl hnew (r • S.base) (a • S.base)
    rfl rfl (by rw [hlong, pointVal_map_smul _ hl]) (by rw [hrandom, pointVal_map_smul _ hl]) calls
  obtain ⟨p1, p2, p3, p4, p5, -, -⟩ := C18_parameters_fixed S d calls
  have hd : d.t = t ∧ d.random = ⟨randomShare, (r :: rs).map (· • S.base)⟩ := by
    unfold newDss at hnew
    simp only at hnew
    split at hnew
    · cases hnew
    · simp only [Res.ok.injEq] at hnew
      subst hnew
      exact ⟨rfl, rfl⟩
  set h := dssChallenge S (r • S.base) (a • S.base) msg
  set ps := (dssRun S d calls).partials
  have hcoef : List.zipWith (· + ·) (r :: rs) ((a :: as).map (h * ·)) =
      (r + h * a) :: List.zipWith (· + ·) rs (as.map (h * ·)) := rfl
  have hlen : (r :: rs).length = ((a :: as).map (h * ·)).length := by
    rw [List.length_map, has, hrs]
  have hgen : Genuine ((r + h * a) :: List.zipWith (· + ·) rs (as.map (h * ·))) ps := by
    intro s hs
    obtain ⟨-, he⟩ := hcorr s hs
    apply smul_base_inj hl hB
    rw [he, ← hcoef, polyVal_zipWith_add hlen, polyVal_map_mul, pointVal_map_smul _ hl,
      pointVal_map_smul _ hl, hl.add, hl.mul]
  have hidx : ∀ i ∈ indices ps, i < q := by
    intro i hi
    obtain ⟨s, hs, rfl⟩ := mem_indices.1 hi
    have := (hcorr s hs).1
    omega
  have hrec := C01_recover_secret q ord (r + h * a) (List.zipWith (· + ·) rs (as.map (h * ·)))
    ps t hgen hidx (by rw [← hcoef]; simp at has hrs ⊢; omega) hcount
  unfold signature
  have hen : enoughPartialSig (dssRun S d calls) = true := by
    unfold enoughPartialSig
    rw [p2, hd.1, decide_eq_true_iff]
    refine le_trans hcount ?_
    unfold indices
    refine le_trans (List.toFinset_card_le _) ?_
    rw [List.length_map]
    exact List.length_filterMap_le _ _
  rw [if_neg (by simp [hen]), p2, hd.1, hrec, p4, hd.2]
  rfl

/-- C17: with fewer than `t` different indices no signature comes out. -/
theorem C17_too_few (S : Suite F G) (ord : MapOrder) (d : DSS F G)
    (h : (indices d.partials).card < d.t) : ∃ e, signature S ord d = .err e := by
  unfold signature
  split
  · exact ⟨_, rfl⟩
  · rw [C02_recover_secret_refuses ord d.partials d.t h]
    exact ⟨_, rfl⟩

/-- C17: the group signature is a valid EdDSA signature of the message for the group key. -/
theorem C17_verifies (S : Suite F G) (hS : S.Lawful) (hG : S.pointLen = 32)
    (hF : S.scalarLen = 32) (a r : F) (msg : Bytes)
    (hA : S.canonG (S.encG (a • S.base)) = true) (hA' : S.small (a • S.base) = false)
    (hR : S.canonG (S.encG (r • S.base)) = true) (hR' : S.small (r • S.base) = false) :
    Eddsa.verify S (a • S.base) msg (S.encG (r • S.base) ++
      S.encS (r + dssChallenge S (r • S.base) (a • S.base) msg * a)) = .ok () := by
  have l1 := fun P => (hS.encG_length P).trans hG
  have l2 := fun P => (hS.encS_length P).trans hF
  unfold Eddsa.verify
  rw [C14_accepts_iff, List.take_left' (l1 _), List.drop_left' (l1 _)]
  refine ⟨by simp [l1, l2], _, _, _, hS.decG_encG _, hR, hR', hS.decS_encS _, hS.canonS_encS _,
    hS.decG_encG _, hA, hA', ?_⟩
  rw [hS.base_lin.add, hS.base_lin.mul]
  rfl

/-- C17: the partial signature an honest participant `i` produces is accepted by everyone else
who has not yet stored one for that index. -/
theorem C17_honest_accepted (S : Suite F G) (hS : S.Lawful) (k : F) (d e e' : DSS F G)
    (ps : PartialSig F) (as rs : List F)
    (hdl : d.long.commits = as.map (· • S.base)) (hdr : d.random.commits = rs.map (· • S.base))
    (hel : e.long.commits = as.map (· • S.base)) (her : e.random.commits = rs.map (· • S.base))
    (hmsg : e.msg = d.msg) (hsid : e.sessionId = d.sessionId)
    (hpart : d.participants[e.index]? = some (e.secret • S.base))
    (hl : e.long.share.v = polyVal as ((e.index + 1 : Nat) : F))
    (hr : e.random.share.v = polyVal rs ((e.index + 1 : Nat) : F))
    (hfree : d.partialsIdx.contains e.index = false)
    (hk : S.canonG (S.encG (k • S.base)) = true ∧ S.small (k • S.base) = false)
    (hp : S.canonG (S.encG (e.secret • S.base)) = true ∧ S.small (e.secret • S.base) = false)
    (hps : partialSig S k e = .ok (ps, e')) :
    ∃ d', processPartialSig S d ps = .ok d' ∧ d'.partials = d.partials ++ [some ps.partialShare] := by
  obtain ⟨R, A, hR, hA, hsh, -⟩ := partialSig_ok S k e e' ps hps
  have hsig : ps.sessionId = e.sessionId ∧ ps.signature = sign S k e.secret
      (partialHash S ps.partialShare e.sessionId) := by
    unfold partialSig at hps
    simp only [Res.bind_eq_ok] at hps
    obtain ⟨h, -, hps⟩ := hps
    split at hps <;>
    · simp only [Res.ok.injEq, Prod.mk.injEq] at hps
      obtain ⟨rfl, -⟩ := hps
      exact ⟨rfl, rfl⟩
  refine ⟨_, (processPartialSig_ok_iff S d _ ps).2 ⟨e.secret • S.base, R, A, ?_, ?_, ?_, ?_, ?_, ?_,
    ?_, rfl⟩, rfl⟩
  · rw [hsh]; exact hpart
  · rw [hsig.1, hsig.2]
    exact C11_sign_verify S hS k e.secret _ hk.1 hk.2 hp.1 hp.2
  · rw [hsig.1, hsid]
  · rw [hsh]; exact hfree
  · rw [hdr, ← her]; exact hR
  · rw [hdl, ← hel]; exact hA
  · rw [hsh]
    simp only [hl, hr, hdl, hdr, pointVal_map_smul _ hS.base_lin, hS.base_lin.add, hS.base_lin.mul, hmsg]
    rw [add_comm]

/-- A run with three participants (keys 5, 6, 7), threshold 2, long-term polynomial 3 + 2x and
random polynomial 4 + x: participant 0 signs and receives the partial signature of
participant 2. -/
def exampleDss (i : Nat) : DSS (ZMod 11) (ZMod 11) :=
  let long : DistKeyShare (ZMod 11) (ZMod 11) := ⟨⟨i, 3 + 2 * (i + 1)⟩, [6, 4]⟩
  let random : DistKeyShare (ZMod 11) (ZMod 11) := ⟨⟨i, 4 + (i + 1)⟩, [8, 2]⟩
  ⟨5 + i, 10 + 2 * i, i, [10, 1, 3], 2, long, random, [1], [], [], false,
    Dss.sessionId Toy.suite long random⟩

/-- The partial signature of participant 2. -/
def examplePartial : PartialSig (ZMod 11) :=
  match partialSig Toy.suite 1 (exampleDss 2) with
  | .ok r => r.1
  | _ => ⟨⟨0, 0⟩, [], []⟩

example : newDss Toy.suite 5 [10, 1, 3] ⟨⟨0, 5⟩, [6, 4]⟩ ⟨⟨0, 5⟩, [8, 2]⟩ [1] 2 =
      .ok (exampleDss 0) ∧
    2 ≤ (indices (dssRun Toy.suite (exampleDss 0) [.own 1, .recv examplePartial]).partials).card ∧
    signature Toy.suite MapOrder.id
      (dssRun Toy.suite (exampleDss 0) [.own 1, .recv examplePartial]) =
      .ok (Toy.enc 8 ++ Toy.enc (4 + dssChallenge Toy.suite 8 6 [1] * 3)) := by
  refine ⟨rfl, by decide +kernel, by decide +kernel⟩

/-- `C18_accepts_iff`, `C18_stored_correct`, `C18_distinct_partial`: the partial signature of participant 2 is
accepted once; a second time, or with another value, it is refused. -/
example : (dssRun Toy.suite (exampleDss 0) [.recv examplePartial]).partials = [some examplePartial.partialShare] ∧
    (dssRun Toy.suite (exampleDss 0) [.recv examplePartial, .recv examplePartial]).partials =
      [some examplePartial.partialShare] ∧
    (dssRun Toy.suite (exampleDss 0)
      [.recv { examplePartial with partialShare := ⟨2, examplePartial.partialShare.v + 1⟩ }]).partials = [] ∧
    (5 : ZMod 11) • Toy.suite.base = pointVal [6, 4] (((exampleDss 0).index + 1 : Nat) : ZMod 11) ∧
    (5 : ZMod 11) • Toy.suite.base = pointVal [8, 2] (((exampleDss 0).index + 1 : Nat) : ZMod 11) ∧
    DistinctIndices (dssRun Toy.suite (exampleDss 0) ([.recv examplePartial] ++ [.own 1])).partials := by
  refine ⟨by decide +kernel, by decide +kernel, by decide +kernel, by decide +kernel, by decide +kernel, ?_⟩
  refine C18_distinct_partial Toy.suite 5 [10, 1, 3] ⟨⟨0, 5⟩, [6, 4]⟩ ⟨⟨0, 5⟩, [8, 2]⟩ [1] 2 (exampleDss 0) rfl
    (by decide) (by decide) [.recv examplePartial] [.own 1] ?_ (Or.inr ⟨1, [], rfl⟩)
  intro ps hps
  have : ps = examplePartial := by simpa using hps
  subst this
  decide +kernel

/-- `C17_signature`, `C17_too_few`: one partial signature of two is not enough; `C17_verifies`: the signature of the
example above is accepted. -/
example : (∃ e, signature Toy.suite MapOrder.id (dssRun Toy.suite (exampleDss 0) [.own 1]) = .err e) ∧
    Eddsa.verify Toy.suite ((3 : ZMod 11) • Toy.suite.base) [1]
      (Toy.enc 8 ++ Toy.enc (4 + dssChallenge Toy.suite 8 6 [1] * 3)) = .ok () := by
  refine ⟨C17_too_few _ _ _ (by decide +kernel), ?_⟩
  exact C17_verifies Toy.suite Toy.lawful (by decide) (by decide) 3 4 [1] (by decide +kernel) (by decide +kernel)
    (by decide +kernel) (by decide +kernel)

/-- `C17_honest_accepted`: the same partial signature by the theorem. -/
example : ∃ d', processPartialSig Toy.suite (exampleDss 0) examplePartial = .ok d' ∧
    d'.partials = (exampleDss 0).partials ++ [some examplePartial.partialShare] :=
  C17_honest_accepted Toy.suite Toy.lawful 1 (exampleDss 0) (exampleDss 2) _ examplePartial [3, 2] [4, 1] (by decide +kernel)
    (by decide +kernel) (by decide +kernel) (by decide +kernel) rfl (by decide +kernel) (by decide +kernel) (by decide +kernel)
    (by decide +kernel) rfl (by decide +kernel) (by decide +kernel) rfl

end

end Kyber.Props
