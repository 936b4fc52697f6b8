/-
Property C150: key generation with silent participants (`src/share/dkg/pedersen/dkg.rs`), then threshold signing
(`src/sign/dss/dss_sig.rs`) by those who took part.
-/
import Verif.Props.DssEpochs
import Verif.Props.DkgPedersenSilent

set_option linter.unusedSectionVars false

namespace Kyber.Props

open Kyber Kyber.Poly Kyber.Schnorr Kyber.Dss Kyber.Spec

variable {F G : Type} [Field F] [AddCommGroup G] [DecidableEq G] [DistribSMul F G]

theorem sumPolyOn_cons (N : Net F G) (A : Finset Nat) (T : Nat) (hT : 0 < T) :
    sumPolyOn N A T = (∑ j ∈ A, N.sec j) :: (sumPolyOn N A T).tail ∧
      ((∑ j ∈ A, N.sec j) :: (sumPolyOn N A T).tail).length = T := by
  have e : sumPolyOn N A T = (∑ j ∈ A, N.sec j) :: (sumPolyOn N A T).tail := by
    obtain ⟨T', rfl⟩ : ∃ T', T = T' + 1 := ⟨T - 1, by omega⟩
    unfold sumPolyOn
    rw [List.range_succ_eq_map, List.map_cons, List.tail_cons]
    rfl
  refine ⟨e, ?_⟩
  rw [← e]
  unfold sumPolyOn
  rw [List.length_map, List.length_range]

/-- C150: two key generations with the threshold `t`, one for the long-term key, in which only the participants in
`A` take part, and one for the nonce, in which only those in `A'` do; all others are silent. Both sets have at least `t`
members, and each sets a timeout. Then every participant in both holds keys with which it opens a signing session, and
whoever of them is handed the partial signatures of `t` of them, whatever else is delivered, gets the signature of the
sum of the secrets of `A` with the sum of the nonces of `A'`. -/
theorem C150_silent (q : Nat) [CharP F q] (E : DkgP.DkgEnv F G) (hS : E.suite.Lawful) (hP : E.prims.Lawful)
    (hB : ∀ s : F, s • E.suite.base = 0 → s = 0)
    (hO : DkgP.PrimsOk E) (N M : Net F G) (hN : N.Honest E) (hM : M.Honest E) (hn : M.n = N.n) (ht : M.t = N.t)
    (ht0 : N.t ≠ 0) (hCN : ∀ j < N.n, ∀ dl ∈ (N.D j).dealer.deals, E.codec.dec (E.codec.enc dl) = some dl)
    (hCM : ∀ j < M.n, ∀ dl ∈ (M.D j).dealer.deals, E.codec.dec (E.codec.enc dl) = some dl) (hq : N.n ≤ q) (z : F)
    (A A' : Finset Nat) (hA : ∀ j ∈ A, j < N.n) (hA' : ∀ j ∈ A', j < N.n) (hc : N.t ≤ A.card) (hc' : N.t ≤ A'.card)
    (sN sM : Nat → List HMsg)
    (hsN : ∀ i ∈ A, Schedule N.n i (sN i) ∧ OnlyFrom A i (sN i) ∧ HMsg.timeout ∈ sN i)
    (hsM : ∀ i ∈ A', Schedule N.n i (sM i) ∧ OnlyFrom A' i (sM i) ∧ HMsg.timeout ∈ sM i)
    (ord : Nat → MapOrder) (msg : Bytes) :
    ∃ (ds : Nat → DSS F G) (a r : F), a = ∑ j ∈ A, N.sec j ∧ r = ∑ j ∈ A', M.sec j ∧
      (∀ i ∈ A ∩ A', ∃ kl kr,
        (dRun E (N.D i) ((sN i).map (HMsg.call E N z i))).distKeyShare E.suite (ord i) = .ok kl ∧
        (dRun E (M.D i) ((sM i).map (HMsg.call E M z i))).distKeyShare E.suite (ord i) = .ok kr ∧
        kl.commits[0]? = some (a • E.suite.base) ∧ kr.commits[0]? = some (r • E.suite.base) ∧
        newDss E.suite (N.x i) (N.pubs E) ⟨kl.share, kl.commits⟩ ⟨kr.share, kr.commits⟩ msg N.t = .ok (ds i)) ∧
      ∀ i ∈ A ∩ A', ∀ (calls : List (DssCall F)) (correct : Finset Nat), N.t ≤ correct.card →
        (∀ j ∈ correct, j ∈ A ∩ A' ∧ ((j = i ∧ ∃ k, .own k ∈ calls) ∨
          ∃ (k : F) (ps : PartialSig F) (d' : DSS F G) (theirs : List (DssCall F)),
            Usable E.suite (k • E.suite.base) ∧
            partialSig E.suite k (dssRun E.suite (ds j) theirs) = .ok (ps, d') ∧ .recv ps ∈ calls)) →
        ∀ ord', signature E.suite ord' (dssRun E.suite (ds i) calls) =
          .ok (E.suite.encG (r • E.suite.base) ++
            E.suite.encS (r + dssChallenge E.suite (r • E.suite.base) (a • E.suite.base) msg * a)) := by
  obtain ⟨e1, e2⟩ := sumPolyOn_cons N A N.t (by omega)
  obtain ⟨e3, e4⟩ := sumPolyOn_cons M A' N.t (by omega)
  have hl : ∀ i ∈ A ∩ A', _ := fun i hi => by
    have h := hsN i (Finset.mem_inter.1 hi).1
    exact ((C129_silent E hS hP hO N hN hCN z ht0 A hA i (Finset.mem_inter.1 hi).1 (sN i) h.1 h.2.1 h.2.2
      (ord i)).1 hc).2.2
  have hr : ∀ i ∈ A ∩ A', _ := fun i hi => by
    have h := hsM i (Finset.mem_inter.1 hi).2
    exact ((C129_silent E hS hP hO M hM hCM z (by rw [ht]; exact ht0) A' (by rw [hn]; exact hA') i
      (Finset.mem_inter.1 hi).2 (sM i) (by rw [hn]; exact h.1) h.2.1 h.2.2 (ord i)).1 (by rw [ht]; exact hc')).2.2
  rw [ht] at hr
  obtain ⟨ds, h1, h2⟩ := C144_holders q E.suite hS hB _ _ _ _ N.t e2 e4 (A ∩ A')
    (fun i => ⟨(sumPolyOn N A N.t).map (fun c => c • E.suite.base),
      ⟨i, polyVal (sumPolyOn N A N.t) ((i + 1 : Nat) : F)⟩, netPoly N N.t i⟩)
    (fun i => ⟨(sumPolyOn M A' N.t).map (fun c => c • E.suite.base),
      ⟨i, polyVal (sumPolyOn M A' N.t) ((i + 1 : Nat) : F)⟩, netPoly M N.t i⟩)
    (fun i _ => by rw [e1]; exact ⟨rfl, rfl⟩) (fun i _ => by rw [e3]; exact ⟨rfl, rfl⟩) N.n N.x hN.nodup
    (fun i hi => hN.x i (hA i (Finset.mem_inter.1 hi).1)) hq (fun i hi => hA i (Finset.mem_inter.1 hi).1) msg
  refine ⟨ds, _, _, rfl, rfl, fun i hi => ⟨_, _, hl i hi, hr i hi, ?_, ?_, h1 i hi⟩, h2⟩
  · show ((sumPolyOn N A N.t).map _)[0]? = _
    rw [e1]
    rfl
  · show ((sumPolyOn M A' N.t).map _)[0]? = _
    rw [e3]
    rfl

end Kyber.Props

/-! ## On edwards25519 -/

namespace Kyber.Ed

open Kyber Kyber.ModInt Kyber.Poly Kyber.Schnorr Kyber.Dss Kyber.Spec Kyber.Props

/-- C150 on edwards25519, with deals in the binary form of the code: the signature is the EdDSA signature of the
message under the generated key; RFC 8032 accepts it, and the library does unless it refuses one of the two points. -/
theorem C150_edwards25519 (sha hash : Bytes → Bytes) (hh : ∀ b, (hash b).length < 2 ^ 64)
    (rep : EdPt → Pt) (hr : ∀ p, (rep p).ge.Rep p) (E : DkgP.DkgEnv (ZMod L) EdPt)
    (hE : E.suite = edSuite sha hash) (hB : E.codec = VssP.binCodec binZ (binEd rep)) (hP : E.prims.Lawful)
    (hO : DkgP.PrimsOk E) (N M : Net (ZMod L) EdPt) (hN : DkgOk E N) (hM : DkgOk E M) (hn : M.n = N.n) (ht : M.t = N.t)
    (ht0 : N.t ≠ 0) (hL : N.n ≤ 2 ^ 64) (z : ZMod L)
    (A A' : Finset Nat) (hA : ∀ j ∈ A, j < N.n) (hA' : ∀ j ∈ A', j < N.n) (hc : N.t ≤ A.card) (hc' : N.t ≤ A'.card)
    (sN sM : Nat → List HMsg)
    (hsN : ∀ i ∈ A, Schedule N.n i (sN i) ∧ OnlyFrom A i (sN i) ∧ HMsg.timeout ∈ sN i)
    (hsM : ∀ i ∈ A', Schedule N.n i (sM i) ∧ OnlyFrom A' i (sM i) ∧ HMsg.timeout ∈ sM i)
    (ord : Nat → MapOrder) (msg : Bytes) :
    ∃ (ds : Nat → DSS (ZMod L) EdPt) (a r : ZMod L), a = ∑ j ∈ A, N.sec j ∧ r = ∑ j ∈ A', M.sec j ∧
      (∀ i ∈ A ∩ A', ∃ kl kr,
        (dRun E (N.D i) ((sN i).map (HMsg.call E N z i))).distKeyShare E.suite (ord i) = .ok kl ∧
        (dRun E (M.D i) ((sM i).map (HMsg.call E M z i))).distKeyShare E.suite (ord i) = .ok kr ∧
        kl.commits[0]? = some (a • basePt) ∧ kr.commits[0]? = some (r • basePt) ∧
        newDss E.suite (N.x i) (N.pubs E) ⟨kl.share, kl.commits⟩ ⟨kr.share, kr.commits⟩ msg N.t = .ok (ds i)) ∧
      ∀ i ∈ A ∩ A', ∀ (calls : List (DssCall (ZMod L))) (correct : Finset Nat), N.t ≤ correct.card →
        (∀ j ∈ correct, j ∈ A ∩ A' ∧ ((j = i ∧ ∃ k, .own k ∈ calls) ∨
          ∃ (k : ZMod L) (ps : PartialSig (ZMod L)) (d' : DSS (ZMod L) EdPt) (theirs : List (DssCall (ZMod L))),
            Accepted (k • basePt) ∧ partialSig E.suite k (dssRun E.suite (ds j) theirs) = .ok (ps, d') ∧
            .recv ps ∈ calls)) →
        ∀ ord', ∃ sig, signature E.suite ord' (dssRun E.suite (ds i) calls) = .ok sig ∧
          sig = ptEnc (r • basePt) ++ leBytes 32 ((r.val + a.val *
            leNat (sha (ptEnc (r • basePt) ++ ptEnc (a • basePt) ++ msg))) % L) ∧
          Rfc8032.Verifies sha 1 (ptEnc (a • basePt)) msg sig ∧
          (eddsaVerify sha (ptEnc (a • basePt)) msg sig = .ok () ↔
            Accepted (r • basePt) ∧ Accepted (a • basePt)) := by
  have hS : E.suite.Lawful := hE ▸ edSuite_lawful sha hash
  have hb : E.suite.base = basePt := by rw [hE]; rfl
  have hdeals : ∀ K : Net (ZMod L) EdPt, DkgOk E K → K.n = N.n →
      ∀ j < K.n, ∀ dl ∈ (K.D j).dealer.deals, E.codec.dec (E.codec.enc dl) = some dl := by
    intro K hK hKn j hj dl hd
    rw [hB]
    refine dealer_deals hr (S := E.suite) (by rw [hE]; exact hh) ?_ (DkgP.honest_new (hK.honest hE).fair hj trivial).2.1
      dl hd
    unfold Net.pubs
    rw [List.length_map, List.length_range, hKn]
    exact hL
  obtain ⟨ds, a, r, ha, hr', h1, h2⟩ := C150_silent L E hS hP
    (fun s h => by
      rw [hb] at h
      exact base_inj (a := s) (b := 0) (h.trans (lin_of_order L_smul_base).zero.symm))
    hO N M (hN.honest hE) (hM.honest hE) hn ht ht0 (hdeals N hN rfl) (hdeals M hM hn) (hL.trans (by decide +kernel)) z A A'
    hA hA' hc hc' sN sM hsN hsM ord msg
  rw [hb] at h1
  refine ⟨ds, a, r, ha, hr', h1, fun i hi calls correct hcc h ord' => ?_⟩
  have h3 := h2 i hi calls correct hcc (fun j hj => by
    obtain ⟨hjn, hj⟩ := h j hj
    refine ⟨hjn, hj.imp_right ?_⟩
    rintro ⟨k, ps, d', cs, hk, hps, hin⟩
    exact ⟨k, ps, d', cs, by rw [hb, hE]; exact (usable_iff sha hash _).2 hk, hps, hin⟩) ord'
  rw [hb] at h3
  have h4 := h3.trans (congrArg Res.ok ((congrArg (fun T : Suite (ZMod L) EdPt => T.encG _ ++ T.encS (_ +
    dssChallenge T _ _ msg * _)) hE).trans (sig_bytes sha hash _ _ msg)))
  refine ⟨_, h4, rfl, ?_, ?_⟩
  · exact rfc_verifies sha _ _ msg
  · rw [eddsaVerify_iff]
    exact sigOk_iff sha _ _ msg

namespace SilentExample

open RunsExample (accepted_one)
open FairExample (key key_inj3 accepted_key3)

/-- What reaches participant 1 or 2 of three when participant 0 is silent. -/
def msgs (i : Nat) : List HMsg := [.resp i (3 - i), .deal (3 - i), .timeout, .deals]

theorem msgs_ok : ∀ i ∈ ({1, 2} : Finset Nat), Schedule 3 i (msgs i) ∧ OnlyFrom {1, 2} i (msgs i) ∧
    HMsg.timeout ∈ msgs i := by
  intro i hi
  have hi : i = 1 ∨ i = 2 := by simpa using hi
  refine ⟨⟨?_, ?_⟩, ⟨by simp [msgs], ?_, ?_⟩, by simp [msgs]⟩
  · intro m hm
    simp only [msgs, List.mem_cons, List.not_mem_nil, or_false] at hm
    rcases hm with rfl | rfl | rfl | rfl <;> simp [HMsg.Wanted] <;> omega
  · intro m hm
    by_cases hin : m ∈ msgs i
    · simp only [msgs, List.mem_cons, List.not_mem_nil, or_false] at hin
      rcases hi with rfl | rfl <;> rcases hin with rfl | rfl | rfl | rfl <;> revert hm <;> decide
    · rw [List.count_eq_zero_of_not_mem hin]; omega
  · intro j
    simp [msgs]
    omega
  · intro j l
    simp [msgs]
    omega

/-- The hypotheses of `C150_edwards25519` are met: three participants with threshold 2, of which participant 0 is
silent; participant 2 signs, its partial signature and junk reach participant 1, which signs as well. -/
example (sha hash : Bytes → Bytes) (hh : ∀ b, (hash b).length < 2 ^ 64) (junk : PartialSig (ZMod L)) (msg : Bytes) :
    ∃ (E : DkgP.DkgEnv (ZMod L) EdPt) (d e : DSS (ZMod L) EdPt) (ps : PartialSig (ZMod L)) (a : ZMod L) (sig : Bytes),
      E.suite = edSuite sha hash ∧ (∃ d', partialSig E.suite 1 e = .ok (ps, d')) ∧ d.index ≠ e.index ∧
      signature E.suite MapOrder.rev (dssRun E.suite d [.recv junk, .recv ps, .recv junk, .own 1]) = .ok sig ∧
      Rfc8032.Verifies sha 1 (ptEnc (a • basePt)) msg sig := by
  obtain ⟨rep, hr⟩ := exists_rep
  choose D hD using fun (i : Nat) (hi : i < 3) => C93_pedersen_start sha hash 3 2 key i hi le_rfl (by decide) (by decide)
    5 [7] (by decide)
  let E : DkgP.DkgEnv (ZMod L) EdPt :=
    { suite := edSuite sha hash, prims := Toy.prims, codec := VssP.binCodec binZ (binEd rep), encDist := fun _ _ => [] }
  let N : Net (ZMod L) EdPt := ⟨3, 2, key, fun _ => 5, fun _ => [7], fun _ _ => 1, fun _ _ => 1, fun _ _ => 1,
    fun _ _ => 1, fun i => if h : i < 3 then D i h else D 0 (by decide)⟩
  have h5 : DkgOk E N := by
    refine ⟨key_inj3, fun i _ => accepted_key3 i, fun _ _ => accepted_one, fun _ _ => accepted_one,
      fun _ _ => accepted_one, ?_⟩
    intro i hi
    have hi : i < 3 := hi
    simp only [N]
    rw [dif_pos hi]
    exact hD i hi
  have hA : ∀ j ∈ ({1, 2} : Finset Nat), j < N.n := by
    intro j hj
    have : j = 1 ∨ j = 2 := by simpa using hj
    show j < 3
    omega
  obtain ⟨ds, a, r, -, -, k1, k2⟩ := C150_edwards25519 sha hash hh rep hr E rfl rfl Toy.prims_lawful
    ⟨fun _ _ => rfl, fun _ _ _ _ => rfl⟩ N N h5 h5 rfl rfl (by decide : (2 : Nat) ≠ 0) (by decide : 3 ≤ 2 ^ 64) 0
    {1, 2} {1, 2} hA hA (by decide : 2 ≤ _) (by decide : 2 ≤ _) msgs msgs msgs_ok msgs_ok (fun _ => MapOrder.id) msg
  obtain ⟨kl, kr, e1, e2, e3, e4, e5⟩ := k1 2 (by decide)
  obtain ⟨kl', kr', e1', e2', e3', e4', e5'⟩ := k1 1 (by decide)
  obtain ⟨g1, -, -, -, g5, g6, -⟩ := newDss_fields _ _ _ _ _ _ _ _ e5
  obtain ⟨g1', -⟩ := newDss_fields _ _ _ _ _ _ _ _ e5'
  have hok : ∃ r, partialSig E.suite 1 (ds 2) = .ok r := by
    unfold partialSig hashSig
    rw [g5, g6]
    simp only [List.head?_eq_getElem?, e3, e4, Res.unwrap_some, Res.bind_ok]
    split <;> exact ⟨_, rfl⟩
  obtain ⟨⟨ps, d'⟩, hps⟩ := hok
  obtain ⟨sig, s1, -, s3, -⟩ := k2 1 (by decide) [.recv junk, .recv ps, .recv junk, .own 1] {1, 2} (by decide : 2 ≤ _)
    (by
      intro j hj
      obtain rfl | rfl : j = 1 ∨ j = 2 := by simpa using hj
      · exact ⟨by decide, Or.inl ⟨rfl, 1, by simp⟩⟩
      · exact ⟨by decide, Or.inr ⟨1, ps, d', [], accepted_one, hps, by simp⟩⟩) MapOrder.rev
  refine ⟨E, ds 1, ds 2, ps, a, sig, rfl, ⟨d', hps⟩, ?_, s1, s3⟩
  intro he
  rw [he, g1] at g1'
  have := h5.keys 2 (by decide : 2 < 3) 1 (by decide : 1 < 3) (base_inj (Option.some.inj g1'))
  omega

end SilentExample

end Kyber.Ed
