/-
C30, C132, C133 and C134 on edwards25519: what a coalition sees, with the second generator that `pick` returns.
-/
import Verif.Props.EdRuns
import Verif.Props.EdBincode
import Verif.Props.DkgRabinSecrecy
import Verif.Props.DkgPedersenBias
import Verif.Props.Secrecy

namespace Kyber.Ed

open Kyber Kyber.ModInt Kyber.Schnorr Kyber.Poly Kyber.Spec Kyber.Props RunsExample

/-- A point of order dividing `L` is a multiple of the base point. -/
theorem multiple_of_order {p : EdPt} (h : L • p = 0) : ∃ w : ZMod L, p = w • basePt := by
  obtain ⟨n, hn⟩ := AddSubgroup.mem_zmultiples_iff.1 ((mem_Sub_iff p).2 h)
  refine ⟨(n : ZMod L), ?_⟩
  rw [act_def, ← hn, ← natCast_zsmul, ZMod.val_intCast]
  conv_lhs => rw [← Int.emod_add_mul_ediv n L, add_smul, mul_comm, mul_smul, natCast_zsmul, L_smul_base, smul_zero,
    add_zero]

/-- What `pick` returns is a multiple of the base point other than zero. -/
theorem Picked.multiple {p : EdPt} (h : Picked p) : ∃ w : ZMod L, w ≠ 0 ∧ p = w • basePt := by
  obtain ⟨σ, S, fuel, self, st, s, h1, h2⟩ := h
  obtain ⟨hv, h3, h4⟩ := C59_pick S fuel self st s h1
  rw [h2.pt_eq] at h3 h4
  obtain ⟨w, rfl⟩ := multiple_of_order h3
  refine ⟨w, fun h0 => ?_, rfl⟩
  have h5 := h4.2
  rw [h0, act_def, ZMod.val_zero, zero_smul, addOrderOf_zero] at h5
  exact absurd h5 (by decide +kernel)

/-- C30 on edwards25519: the second generator is whatever `pick` returns; what fewer than `t` verifiers of the
Rabin VSS see is compatible with every secret. -/
theorem C30_edwards25519 (sha hash : Bytes → Bytes) (E : VssR.Env (ZMod L) EdPt) (hE : E.suite = edSuite sha hash)
    (hH : ∀ b, Picked (E.pickFrom b)) (x secret : ZMod L) (pubs : List EdPt) (t : Nat) (fD gD : List (ZMod L))
    (d : VssR.Dealer (ZMod L) EdPt) (hd : VssR.newDealer E x secret pubs t fD gD = .ok d)
    (coalition : Finset Nat) (hq : ∀ i ∈ coalition, i + 1 < L) (hcard : coalition.card < t) (secret' : ZMod L) :
    ∃ (fD' gD' : List (ZMod L)) (d' : VssR.Dealer (ZMod L) EdPt),
      VssR.newDealer E x secret' pubs t fD' gD' = .ok d' ∧
      d'.sessionId = d.sessionId ∧ d'.aggregator = d.aggregator ∧
      ∀ i ∈ coalition, d'.deals[i]? = d.deals[i]? := by
  have hb : E.suite.base = basePt := by rw [hE]; rfl
  obtain ⟨w, hw, he⟩ := (hH _).multiple
  exact C30_view_hides_secret L E (hE ▸ (edSuite_lawful sha hash).base_lin) x secret pubs t fD gD d hd w hw
    (by rw [hb]; exact he) coalition hq hcard secret'

/-- The code's binary form reads back the deals of every honest group of a Pedersen DKG with up to 2^64 members. -/
theorem reads_back (sha hash : Bytes → Bytes) (hh : ∀ b, (hash b).length < 2 ^ 64) (rep : EdPt → Pt)
    (hr : ∀ p, (rep p).ge.Rep p) (E : DkgP.DkgEnv (ZMod L) EdPt) (hE : E.suite = edSuite sha hash)
    (hB : E.codec = VssP.binCodec binZ (binEd rep)) {n : Nat} (hn : n ≤ 2 ^ 64) : Net.ReadsBack E n := by
  rintro N h rfl j hj dl hd
  rw [hB]
  refine dealer_deals hr (S := E.suite) (by rw [hE]; exact hh) ?_ (DkgP.honest_new h.fair hj trivial).2.1 dl hd
  unfold Net.pubs
  rw [List.length_map, List.length_range]
  exact hn

/-- The same for the Rabin DKG. -/
theorem reads_back_rabin (sha hash : Bytes → Bytes) (hh : ∀ b, (hash b).length < 2 ^ 64) (rep : EdPt → Pt)
    (hr : ∀ p, (rep p).ge.Rep p) (E : VssR.Env (ZMod L) EdPt) (hE : E.suite = edSuite sha hash)
    (hB : E.codec = VssR.binCodec binZ (binEd rep)) {n : Nat} (hn : n ≤ 2 ^ 64) : RNet.ReadsBack E n := by
  rintro N h rfl j hj dl hd
  rw [hB]
  refine dealer_deals_rabin hr (E := E) (by rw [hE]; exact hh) ?_
    (DkgR.newDistKeyGenerator_ok (h.start j hj)).2.1 dl hd
  unfold RNet.pubs
  rw [List.length_map, List.length_range]
  exact hn

/-- C132 on edwards25519: what fewer than `t` participants of a Rabin DKG know before `j` reveals its commitments is
compatible with every key of the prime-order subgroup. -/
theorem C132_edwards25519 (sha hash : Bytes → Bytes) (E : VssR.Env (ZMod L) EdPt) (hE : E.suite = edSuite sha hash)
    (hP : E.prims.Lawful) (hH : ∀ b, Picked (E.pickFrom b)) (hO : DkgR.PrimsOkR E)
    (N : RNet (ZMod L) EdPt) (h : RDkgOk E N) (hC : RNet.ReadsBack E N.n) (hn : N.n < L)
    (coalition : Finset Nat) (hq : ∀ i ∈ coalition, i < N.n) (hcard : coalition.card < N.t)
    (j : Nat) (hj : j < N.n) (hjc : j ∉ coalition) (key : EdPt) (hkey : L • key = 0) :
    ∃ N' : RNet (ZMod L) EdPt, N'.Honest E ∧ N'.n = N.n ∧
      (∀ (z : ZMod L) (ord : MapOrder) (i : Nat), i ∈ coalition → ∀ msgs : List RMsg, RMsg.commits j ∉ msgs →
        msgs.map (RMsg.call E N' z ord i) = msgs.map (RMsg.call E N z ord i) ∧
        qRun E (N'.D i) (msgs.map (RMsg.call E N' z ord i)) = qRun E (N.D i) (msgs.map (RMsg.call E N z ord i))) ∧
      (∀ (z : ZMod L) (ord ord' : MapOrder) (i : Nat) (msgs : List RMsg), i < N.n → RSchedule N.n i msgs →
        RComplete N.n i msgs → ∃ k,
        (qRun E (N'.D i) (msgs.map (RMsg.call E N' z ord i))).distKeyShare ord' = .ok k ∧
        k.commits.head? = some key) := by
  have hb : E.suite.base = basePt := by rw [hE]; rfl
  obtain ⟨w, hw, he⟩ := (hH _).multiple
  obtain ⟨a, ha⟩ := multiple_of_order hkey
  have := C132_any_key L E (hE ▸ edSuite_lawful sha hash) hP (fun b => (hH b).lin) hO N (h.honest hE) hC hn.le w hw
    (by rw [hb]; exact he) coalition (fun i hi => by have := hq i hi; omega) hcard j hj hjc a
  rw [hb, ← ha] at this
  exact this

/-- C134 on edwards25519: among the draws of `j` that look to fewer than `t` participants like those of `N`, every
distributed secret comes out equally often. -/
theorem C134_edwards25519 (sha hash : Bytes → Bytes) (E : VssR.Env (ZMod L) EdPt) (hE : E.suite = edSuite sha hash)
    (hH : ∀ b, Picked (E.pickFrom b)) (N : RNet (ZMod L) EdPt) (h : RDkgOk E N) (hn : N.n < L)
    (coalition : Finset Nat) (hq : ∀ i ∈ coalition, i < N.n) (hcard : coalition.card < N.t)
    (j : Nat) (hj : j < N.n) (hjc : j ∉ coalition) (a a' : ZMod L) :
    Nat.card { r : ZMod L × Draws (ZMod L) N.t //
      RNet.SameView E coalition j N (N.draw E j r) ∧ (N.draw E j r).total = a } =
    Nat.card { r : ZMod L × Draws (ZMod L) N.t //
      RNet.SameView E coalition j N (N.draw E j r) ∧ (N.draw E j r).total = a' } := by
  have hb : E.suite.base = basePt := by rw [hE]; rfl
  obtain ⟨w, hw, he⟩ := (hH _).multiple
  exact C134_generation_count L E (hE ▸ edSuite_lawful sha hash) N (h.honest hE) w hw (by rw [hb]; exact he) coalition
    (fun i hi => by have := hq i hi; omega) hcard j hj hjc a a'

/-- C133 on edwards25519: the participant that looks at the deals of the others first gets, among the candidate
secrets it tries, one for which the key has the property it wants. -/
theorem C133_edwards25519 (sha hash : Bytes → Bytes) (E : DkgP.DkgEnv (ZMod L) EdPt) (hE : E.suite = edSuite sha hash)
    (hP : E.prims.Lawful) (hO : DkgP.PrimsOk E) (N : Net (ZMod L) EdPt) (h : DkgOk E N)
    (hC : Net.ReadsBack E N.n) (j : Nat) (hj : j < N.n) (want : EdPt → Bool)
    (candidates : List (ZMod L)) (s : ZMod L)
    (hs : candidates.find? (fun s => want (foresee E (N.x j) (N.pubs E) (N.received E j) + s • basePt)) = some s) :
    ∃ d, let N' := N.choose j s d
      N'.Honest E ∧ (∀ l ≠ j, ∀ i, N'.dealMsg E l i = N.dealMsg E l i) ∧
      ∀ (z : ZMod L) (i : Nat), i < N.n → ∀ msgs : List HMsg, Schedule N.n i msgs → Complete N.n i msgs →
        ∀ ord : MapOrder, ∃ k key, (dRun E (N'.D i) (msgs.map (HMsg.call E N' z i))).distKeyShare E.suite ord = .ok k ∧
          k.commits.head? = some key ∧ want key = true := by
  have hb : E.suite.base = basePt := by rw [hE]; rfl
  exact C133_steered E (hE ▸ edSuite_lawful sha hash) hP hO N (h.honest hE) hC j hj want candidates s (by rw [hb]; exact hs)

/-- A dealer for the hypotheses of `C30_edwards25519` and the participants for those of `C132_edwards25519` and
`C134_edwards25519`: two participants with threshold 2, one of which is curious; the key may turn out to be the
base point. -/
example (sha hash : Bytes → Bytes) (hh : ∀ b, (hash b).length < 2 ^ 64) :
    ∃ (E : VssR.Env (ZMod L) EdPt) (N : RNet (ZMod L) EdPt),
    E.suite = edSuite sha hash ∧ E.prims.Lawful ∧ (∀ b, Picked (E.pickFrom b)) ∧
    RNet.ReadsBack E N.n ∧ DkgR.PrimsOkR E ∧ RDkgOk E N ∧ N.n < L ∧
    (∀ i ∈ ({1} : Finset Nat), i < N.n) ∧ ({1} : Finset Nat).card < N.t ∧ 0 < N.n ∧ L • basePt = 0 ∧
    VssR.newDealer E (N.x 0) (N.sec 0) (N.pubs E) N.t (N.fD 0) (N.gD 0) = .ok (N.D 0).dealer := by
  obtain ⟨rep, hr⟩ := exists_rep
  let E : VssR.Env (ZMod L) EdPt := ⟨edSuite sha hash, Toy.prims, VssR.binCodec binZ (binEd rep), fun _ => 8 • basePt⟩
  choose D hD using fun (i : Nat) (hi : i < 2) => C93_rabin_start E sha hash rfl 2 2 key i hi le_rfl le_rfl (by decide) 5 [7]
    [3, 4] (by decide) (by decide)
  have hst : ∀ i < 2, DkgR.newDistKeyGenerator E (key i) ((List.range 2).map (fun i => key i • basePt)) 2 5 [7] [3, 4] =
      .ok (if h : i < 2 then D i h else D 0 (by decide)) := by
    intro i hi
    rw [dif_pos hi]
    exact hD i hi
  refine ⟨E, ⟨2, 2, key, fun _ => 5, fun _ => [7], fun _ => [3, 4], fun _ _ => 1, fun _ _ => 1, fun _ _ => 1, fun _ => 1,
      fun i => if h : i < 2 then D i h else D 0 (by decide)⟩, rfl, Toy.prims_lawful, fun _ => ?_,
    reads_back_rabin sha hash hh rep hr E rfl rfl (by decide : 2 ≤ 2 ^ 64),
    ⟨fun _ _ => rfl, fun _ _ _ _ => rfl⟩,
    ⟨key_inj, fun i _ => accepted_key i, fun _ _ => accepted_one, fun _ _ => accepted_one, fun _ => accepted_one, hst⟩,
    (by decide +kernel : 2 < L), (by decide : ∀ i ∈ ({1} : Finset Nat), i < 2),
    (by decide : ({1} : Finset Nat).card < 2), (by decide : 0 < 2), L_smul_base, ?_⟩
  · obtain ⟨s, h1, h2⟩ := pick_example extZero
    exact ⟨_, _, _, _, _, s, h1, h2⟩
  · exact (DkgR.newDistKeyGenerator_ok (hst 0 (by decide))).2.1

theorem try_two (K : EdPt) : ∃ s, ([1, 2] : List (ZMod L)).find? (fun s => decide (K + s • basePt ≠ 0)) = some s := by
  rw [← Option.isSome_iff_exists, List.find?_isSome]
  by_contra hno
  push Not at hno
  have h1 := not_not.1 (fun h => hno 1 (by simp) (decide_eq_true h))
  have h2 := not_not.1 (fun h => hno 2 (by simp) (decide_eq_true h))
  have h3 : (1 : ZMod L) = 2 := base_inj (add_left_cancel (h1.trans h2.symm))
  rw [← one_add_one_eq_two, left_eq_add] at h3
  exact one_ne_zero h3

/-- The participants for the hypotheses of `C133_edwards25519`: participant 0 tries the secrets 1 and 2 and wants
any key but the neutral element. -/
example (sha hash : Bytes → Bytes) (hh : ∀ b, (hash b).length < 2 ^ 64) :
    ∃ (E : DkgP.DkgEnv (ZMod L) EdPt) (N : Net (ZMod L) EdPt) (s : ZMod L),
    E.suite = edSuite sha hash ∧ E.prims.Lawful ∧ Net.ReadsBack E N.n ∧ DkgP.PrimsOk E ∧
    DkgOk E N ∧ 0 < N.n ∧
    [1, 2].find? (fun s => decide (foresee E (N.x 0) (N.pubs E) (N.received E 0) + s • basePt ≠ 0)) = some s := by
  obtain ⟨rep, hr⟩ := exists_rep
  let E : DkgP.DkgEnv (ZMod L) EdPt :=
    { suite := edSuite sha hash, prims := Toy.prims, codec := VssP.binCodec binZ (binEd rep), encDist := fun _ _ => [] }
  choose D hD using fun (i : Nat) (hi : i < 2) => C93_pedersen_start sha hash 2 2 key i hi le_rfl le_rfl (by decide) 5 [7] (by decide)
  let N : Net (ZMod L) EdPt := ⟨2, 2, key, fun _ => 5, fun _ => [7], fun _ _ => 1, fun _ _ => 1, fun _ _ => 1, fun _ _ => 1,
      fun i => if h : i < 2 then D i h else D 0 (by decide)⟩
  have h : DkgOk E N := by
    refine ⟨key_inj, fun i _ => accepted_key i, fun _ _ => accepted_one, fun _ _ => accepted_one, fun _ _ => accepted_one, ?_⟩
    intro i hi
    simp only [N]
    rw [dif_pos hi]
    exact hD i hi
  obtain ⟨s, hs⟩ := try_two (foresee E (N.x 0) (N.pubs E) (N.received E 0))
  exact ⟨E, N, s, rfl, Toy.prims_lawful, reads_back sha hash hh rep hr E rfl rfl (by decide : 2 ≤ 2 ^ 64),
    ⟨fun _ _ => rfl, fun _ _ _ _ => rfl⟩, h,
    (by decide : 0 < 2), hs⟩

end Kyber.Ed
