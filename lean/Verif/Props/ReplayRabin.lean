/-
C153 for the Rabin key generation, and both on edwards25519.
-/
import Verif.Spec.Replay
import Verif.Props.Replay
import Verif.Props.DkgRabinHonest
import Verif.Props.DkgRabinEvidence
import Verif.Props.EdRuns

namespace Kyber.Props

open Kyber.Poly Kyber.VssR Kyber.DkgR Kyber.Spec

/-- The coefficients of the sum of the secret polynomials, those of the run `M` for the dealers in `old`. -/
def rMixedPoly {F G : Type} [Field F] (N M : RNet F G) (old : Nat → Bool) : List F :=
  (List.range N.t).map (fun c => ∑ j ∈ Finset.range N.n, (if old j then M.poly j else N.poly j).getD c 0)

namespace ReplayR

variable {F G : Type} [Field F] [AddCommGroup G] [DecidableEq G]

/-- The group in which the dealers in `old` are those of the run `M`. -/
def mix (N M : RNet F G) (old : Nat → Bool) (i : Nat) : RNet F G where
  n := N.n
  t := N.t
  x := N.x
  sec j := if old j then M.sec j else N.sec j
  fD j := if old j then M.fD j else N.fD j
  gD j := if old j then M.gD j else N.gD j
  dh j := if old j then M.dh j else N.dh j
  k j := if old j then M.k j else N.k j
  vk l j := if old j && l != i then M.vk l j else N.vk l j
  ck j := if old j then M.ck j else N.ck j
  D j := if old j then M.D j else N.D j

section

variable [SMul F G]

theorem pubs_eq {E : VssR.Env F G} {N M : RNet F G} (hg : SameGroupR N M) : M.pubs E = N.pubs E := by
  unfold RNet.pubs
  rw [hg.n]
  exact List.map_congr_left fun i hi => by rw [hg.x i (List.mem_range.1 hi)]

theorem mix_honest {E : VssR.Env F G} {N M : RNet F G} (hN : N.Honest E) (hM : M.Honest E) (hg : SameGroupR N M)
    (old : Nat → Bool) (i : Nat) : (mix N M old i).Honest E where
  nodup := hN.nodup
  x := hN.x
  k a b := by
    show Usable E.suite ((if old a then M.k a else N.k a) b • E.suite.base)
    split
    · exact hM.k a b
    · exact hN.k a b
  vk a b := by
    show Usable E.suite ((if old b && a != i then M.vk a b else N.vk a b) • E.suite.base)
    split
    · exact hM.vk a b
    · exact hN.vk a b
  ck a := by
    show Usable E.suite ((if old a then M.ck a else N.ck a) • E.suite.base)
    split
    · exact hM.ck a
    · exact hN.ck a
  start j hj := by
    have hj' : j < N.n := hj
    show newDistKeyGenerator E (N.x j) (N.pubs E) N.t (if old j then M.sec j else N.sec j)
      (if old j then M.fD j else N.fD j) (if old j then M.gD j else N.gD j) = .ok (if old j then M.D j else N.D j)
    split
    · rw [← hg.x j hj', ← pubs_eq hg, ← hg.t]
      exact hM.start j (by rw [hg.n]; exact hj')
    · exact hN.start j hj'

theorem mix_dealMsg {E : VssR.Env F G} {N M : RNet F G} (old : Nat → Bool) (i j l : Nat) :
    (mix N M old i).dealMsg E j l = if old j then M.dealMsg E j l else N.dealMsg E j l := by
  cases ho : old j
  · simp only [RNet.dealMsg, RNet.enc, mix, ho, Bool.false_eq_true, if_false]
  · simp only [RNet.dealMsg, RNet.enc, mix, ho, if_true]

theorem mix_respMsg {E : VssR.Env F G} {N M : RNet F G} (hg : SameGroupR N M) (old : Nat → Bool) {i : Nat} {l : Nat}
    (hl : l < N.n) (hli : l ≠ i) (j : Nat) :
    (mix N M old i).respMsg E j l = if old j then M.respMsg E j l else N.respMsg E j l := by
  have hne : (l != i) = true := by simpa using hli
  cases ho : old j
  · simp only [RNet.respMsg, mix, ho, Bool.false_eq_true, if_false, Bool.false_and]
  · simp only [RNet.respMsg, mix, ho, hne, if_true, Bool.and_self, hg.x l hl]

theorem mix_commitMsg {E : VssR.Env F G} {N M : RNet F G} (hg : SameGroupR N M) (old : Nat → Bool) (i : Nat) {j : Nat}
    (hj : j < N.n) : (mix N M old i).commitMsg E j = if old j then M.commitMsg E j else N.commitMsg E j := by
  cases ho : old j
  · simp only [RNet.commitMsg, RNet.poly, mix, ho, Bool.false_eq_true, if_false]
  · simp only [RNet.commitMsg, RNet.poly, mix, ho, if_true, hg.x j hj, hg.t]

theorem mix_call {E : VssR.Env F G} {N M : RNet F G} (hg : SameGroupR N M) {old : Nat → Bool} {i : Nat}
    (hold : old i = false) (z : F) (ord : MapOrder) {m : RMsg} (hw : m.Wanted N.n i) :
    m.call E (mix N M old i) z ord i = replayedR E N M old z ord i m := by
  cases m with
  | deals =>
    simp only [RMsg.call, replayedR, mix, hold, Bool.false_eq_true, if_false, Bool.false_and]
  | deal j =>
    show QCall.deal _ _ = QCall.deal _ _
    rw [mix_dealMsg]
    congr 1
    show (if old j && i != i then M.vk i j else N.vk i j) = N.vk i j
    simp
  | resp j l =>
    obtain ⟨-, hl, hli, -⟩ := hw
    show QCall.response _ _ = QCall.response _ _
    rw [mix_respMsg hg old hl hli j]
  | timeout => rfl
  | ownCommits =>
    simp only [RMsg.call, replayedR, mix, hold, Bool.false_eq_true, if_false]
  | commits j =>
    show QCall.commits _ _ _ = QCall.commits _ _ _
    rw [mix_commitMsg hg old i hw.1]

theorem mix_calls {E : VssR.Env F G} {N M : RNet F G} (hg : SameGroupR N M) {old : Nat → Bool} {i : Nat}
    (hold : old i = false) (z : F) (ord : MapOrder) {s : List RMsg} (hw : ∀ m ∈ s, m.Wanted N.n i) :
    s.map (RMsg.call E (mix N M old i) z ord i) = s.map (replayedR E N M old z ord i) :=
  List.map_congr_left fun m hm => mix_call hg hold z ord (hw m hm)

theorem mix_sumPoly {N M : RNet F G} (hg : SameGroupR N M) (old : Nat → Bool) (i : Nat) :
    rSumPoly (mix N M old i) = rMixedPoly N M old := by
  unfold rSumPoly rMixedPoly
  refine List.map_congr_left fun c _ => Finset.sum_congr rfl fun j _ => ?_
  congr 1
  unfold RNet.poly
  cases ho : old j <;> simp [mix, ho, hg.t]

end

end ReplayR

section

variable {F G : Type} [Field F] [AddCommGroup G] [DecidableEq G] [DistribSMul F G]

/-- C153 for the Rabin key generation. A participant of the second run that gets, for any set `old` of other
dealers, the deal, the responses and the commitments of the first run, in any order in which what is answered comes
first, approves the deals, answers no commitments with a complaint, finishes, and returns the sum of the
polynomials, for the dealers in `old` those of the first run. -/
theorem C153_replay_rabin (E : VssR.Env F G) (hS : E.suite.Lawful) (hP : E.prims.Lawful)
    (hH : ∀ b, Lin F (E.pickFrom b)) (hO : PrimsOkR E) (N M : RNet F G) (hN : N.Honest E) (hM : M.Honest E)
    (hg : SameGroupR N M)
    (hC : ∀ j < N.n, ∀ dl ∈ (N.D j).dealer.deals ++ (M.D j).dealer.deals, E.codec.dec (E.codec.enc dl) = some dl)
    (z : F) (ord : MapOrder) (i : Nat) (hi : i < N.n) (old : Nat → Bool) (hold : old i = false)
    (s : List RMsg) (hs : RSchedule N.n i s) :
    (∀ pre j post, s = pre ++ .deal j :: post →
      ∃ r, ((qRun E (N.D i) (pre.map (replayedR E N M old z ord i))).processDeal E
        (if old j then M.dealMsg E j i else N.dealMsg E j i) (N.vk i j)).2 = .ok r ∧ r.response.status = true) ∧
    (∀ pre j l post, s = pre ++ .resp j l :: post →
      ((qRun E (N.D i) (pre.map (replayedR E N M old z ord i))).processResponse E
        (if old j then M.respMsg E j l else N.respMsg E j l) z).2 = .ok none) ∧
    (∀ pre j post, s = pre ++ .commits j :: post →
      ((qRun E (N.D i) (pre.map (replayedR E N M old z ord i))).processSecretCommits E ord
        (if old j then M.commitMsg E j else N.commitMsg E j) z).2 = .ok none) ∧
    (RComplete N.n i s → ∀ ord',
      (qRun E (N.D i) (s.map (replayedR E N M old z ord i))).finished ord' = true ∧
      (qRun E (N.D i) (s.map (replayedR E N M old z ord i))).distKeyShare ord' = .ok
        { commits := (rMixedPoly N M old).map (fun c => c • E.suite.base)
          share := ⟨i, polyVal (rMixedPoly N M old) ((i + 1 : Nat) : F)⟩ }) := by
  have hD : (ReplayR.mix N M old i).D i = N.D i := by
    show (if old i then M.D i else N.D i) = N.D i
    rw [hold]; rfl
  obtain ⟨hsucc, hfin⟩ := C39_honest_run E hS hP hH hO (ReplayR.mix N M old i)
    (ReplayR.mix_honest hN hM hg old i)
    (by
      intro j hj dl hdl
      refine hC j hj dl ?_
      have hdl : dl ∈ (if old j then M.D j else N.D j).dealer.deals := hdl
      split at hdl
      · exact List.mem_append_right _ hdl
      · exact List.mem_append_left _ hdl) z ord i hi s hs
  rw [hD] at hsucc hfin
  have hpre : ∀ pre m post, s = pre ++ m :: post → m.Wanted N.n i ∧
      pre.map (RMsg.call E (ReplayR.mix N M old i) z ord i) = pre.map (replayedR E N M old z ord i) := by
    intro pre m post he
    refine ⟨hs.wanted m (by rw [he]; simp), ReplayR.mix_calls hg hold z ord fun m' hm' => ?_⟩
    exact hs.wanted m' (by rw [he]; exact List.mem_append_left _ hm')
  refine ⟨fun pre j post he => ?_, fun pre j l post he => ?_, fun pre j post he => ?_, fun hc ord' => ?_⟩
  · obtain ⟨-, hcalls⟩ := hpre pre _ post he
    have := hsucc pre _ post he
    rw [hcalls] at this
    have this : ((qRun E (N.D i) (pre.map (replayedR E N M old z ord i))).processDeal E
      ((ReplayR.mix N M old i).dealMsg E j i) ((ReplayR.mix N M old i).vk i j)).2 =
        .ok ((ReplayR.mix N M old i).respMsg E j i) := this
    rw [ReplayR.mix_dealMsg old i j i,
      show (ReplayR.mix N M old i).vk i j = N.vk i j by simp [ReplayR.mix]] at this
    exact ⟨_, this, rfl⟩
  · obtain ⟨hw, hcalls⟩ := hpre pre _ post he
    have := hsucc pre _ post he
    rw [hcalls] at this
    have this : ((qRun E (N.D i) (pre.map (replayedR E N M old z ord i))).processResponse E
      ((ReplayR.mix N M old i).respMsg E j l) z).2 = .ok none := this
    rwa [ReplayR.mix_respMsg hg old hw.2.1 hw.2.2.1 j] at this
  · obtain ⟨hw, hcalls⟩ := hpre pre _ post he
    have := hsucc pre _ post he
    rw [hcalls] at this
    have this : ((qRun E (N.D i) (pre.map (replayedR E N M old z ord i))).processSecretCommits E ord
      ((ReplayR.mix N M old i).commitMsg E j) z).2 = .ok none := this
    rwa [ReplayR.mix_commitMsg hg old i hw.1] at this
  · have := hfin hc ord'
    rw [ReplayR.mix_calls hg hold z ord hs.wanted, ReplayR.mix_sumPoly hg] at this
    exact this

end

namespace ReplayRExample

open Kyber.Toy

/-- An earlier run by the group of `netR`. -/
def netR0 : RNet (ZMod 11) (ZMod 11) :=
  { netR envR with
    sec := fun i => [2, 3, 8].getD i 0
    fD := fun i => [[1], [7], [4]].getD i []
    D := fun i => getDkgR (newDistKeyGenerator envR ([3, 5, 2].getD i 1) [6, 10, 4] 2
      ([2, 3, 8].getD i 0) ([[1], [7], [4]].getD i []) ([[2, 8], [3, 7], [10, 1]].getD i [])) }

theorem netR0_honest : netR0.Honest envR where
  nodup := DkgRExample.netR_honest.nodup
  x := DkgRExample.netR_honest.x
  k := DkgRExample.netR_honest.k
  vk := DkgRExample.netR_honest.vk
  ck := DkgRExample.netR_honest.ck
  start i hi := by
    have : i = 0 ∨ i = 1 ∨ i = 2 := by
      have : i < 3 := hi
      omega
    rcases this with rfl | rfl | rfl <;> rfl

/-- Participant 1 finishes with the key 7 + 1 + 8 instead of 7 + 1 + 4. -/
example : ∃ key, (qRun envR ((netR envR).D 1) (DkgRExample.sched.map
      (replayedR envR (netR envR) netR0 (· == 2) 1 MapOrder.id 1))).distKeyShare MapOrder.id = .ok key ∧
      key.commits.head? = some ((16 : ZMod 11) • envR.suite.base) := by
  refine ⟨_, ((C153_replay_rabin envR lawful prims_lawful (fun _ => Lin.of_module _)
    ⟨fun _ _ => rfl, fun _ _ _ _ => rfl⟩ (netR envR) netR0
    DkgRExample.netR_honest netR0_honest ⟨rfl, rfl, fun _ _ => rfl⟩ (fun _ _ d _ => codecR_lawful d) 1 MapOrder.id 1
    (by decide) (· == 2) rfl DkgRExample.sched DkgRExample.sched_ok.1).2.2.2 DkgRExample.sched_ok.2 MapOrder.id).2, ?_⟩
  decide +kernel

end ReplayRExample

end Kyber.Props

namespace Kyber.Ed

open Kyber Kyber.ModInt Kyber.Poly Kyber.Spec Kyber.Props

/-- C153 on edwards25519: participant `i` of the second run is handed messages of the first about the dealers in
`old`. It is certified and holds a share of the key whose private key is the sum of the secrets, for the dealers in
`old` those of the first run; the point is the one `Point::mul` computes from it. It is the public key of the second
run exactly if the replaced secrets have the same sum. -/
theorem C153_edwards25519 (sha hash : Bytes → Bytes) (E : DkgP.DkgEnv (ZMod L) EdPt)
    (hE : E.suite = edSuite sha hash) (hP : E.prims.Lawful) (hO : DkgP.PrimsOk E) (N M : Net (ZMod L) EdPt)
    (hN : DkgOk E N) (hM : DkgOk E M) (hg : SameGroup N M)
    (hC : ∀ j < N.n, ∀ dl ∈ (N.D j).dealer.deals ++ (M.D j).dealer.deals, E.codec.dec (E.codec.enc dl) = some dl)
    (z : ZMod L) (i : Nat) (hi : i < N.n) (old : Nat → Bool) (hold : old i = false)
    (s : List HMsg) (hs : Schedule N.n i s) (hc : Complete N.n i s) (ord : MapOrder) :
    ∃ (secret : ZMod L) (key : DkgP.DistKeyShare (ZMod L) EdPt),
      secret = ∑ j ∈ Finset.range N.n, (if old j then M.sec j else N.sec j) ∧
      (dRun E (N.D i) (s.map (replayed E N M old z i))).certified ord = true ∧
      (dRun E (N.D i) (s.map (replayed E N M old z i))).distKeyShare E.suite ord = .ok key ∧
      key.commits.head? = some (secret • basePt) ∧ (ptMul (leBytes 32 secret.val) none).Rep (secret • basePt) ∧
      ∀ key', (dRun E (N.D i) (s.map (HMsg.call E N z i))).distKeyShare E.suite ord = .ok key' →
        (key.commits.head? = key'.commits.head? ↔
          ∑ j ∈ Finset.range N.n with old j, M.sec j = ∑ j ∈ Finset.range N.n with old j, N.sec j) := by
  have hS : E.suite.Lawful := hE ▸ edSuite_lawful sha hash
  have hb : E.suite.base = basePt := by rw [hE]; rfl
  have hB : ∀ c : ZMod L, c • E.suite.base = 0 → c = 0 := by
    intro c hc
    rw [hb] at hc
    exact base_inj (hc.trans (by rw [act_def, ZMod.val_zero, zero_smul]))
  set T := if N.t ≠ 0 then N.t else VssP.minimumT N.n with hT
  have hcall : replayed E N M (fun _ => false) z i = HMsg.call E N z i := by
    funext m
    cases m <;> rfl
  obtain ⟨hcert, hkey⟩ := (C153_replay E hS hP hO N M (hN.honest hE) (hM.honest hE) hg hC z T hT i hi old hold s
    hs).2.2 hc ord
  obtain ⟨-, hkey0⟩ := (C153_replay E hS hP hO N M (hN.honest hE) (hM.honest hE) hg hC z T hT i hi (fun _ => false)
    rfl s hs).2.2 hc ord
  obtain ⟨k1, k2, h1, h2, h3⟩ := C153_split E hS hP hO hB N M (hN.honest hE) (hM.honest hE) hg hC z i i hi hi old
    (fun _ => false) hold rfl s s hs hs hc hc ord ord
  have hT0 : 0 < T := by
    rw [hT]
    split
    · omega
    · unfold VssP.minimumT; omega
  obtain ⟨T', hT'⟩ : ∃ T', T = T' + 1 := ⟨T - 1, by omega⟩
  refine ⟨_, _, rfl, hcert, hkey, ?_, mul_base_model _, fun key' hk' => ?_⟩
  · show ((mixedPoly N M old T).map (fun c => c • E.suite.base)).head? = _
    rw [hT', mixedPoly, List.range_succ_eq_map, List.map_cons, List.map_cons, List.head?_cons, hb]
    congr 2
    refine Finset.sum_congr rfl fun j _ => ?_
    cases old j <;> rfl
  · rw [hcall, hk'] at h2
    rw [hkey] at h1
    cases h1
    cases h2
    rw [h3, Finset.sum_filter, Finset.sum_filter]
    simp only [Bool.false_eq_true, if_false]
    rw [← sub_eq_zero, ← Finset.sum_sub_distrib, ← sub_eq_zero (a := ∑ j ∈ _, if old j = true then M.sec j else 0),
      ← Finset.sum_sub_distrib]
    have : ∀ j, (if old j = true then M.sec j else N.sec j) - N.sec j =
        (if old j = true then M.sec j else 0) - (if old j = true then N.sec j else 0) := by
      intro j
      split <;> simp
    simp only [this]

/-- Two participants, two runs with the secrets 5 and 6. Participant 1 of the second run is handed the deal which
participant 0 made in the first: its key is 5 + 6 times the base point and not twice 5. -/
example (sha hash : Bytes → Bytes) : ∃ (E : DkgP.DkgEnv (ZMod L) EdPt) (N M : Net (ZMod L) EdPt)
    (key : DkgP.DistKeyShare (ZMod L) EdPt), N.n = 2 ∧
    (dRun E (N.D 1) (RunsExample.sched.map (replayed E N M (· == 0) 0 1))).distKeyShare E.suite MapOrder.id = .ok key ∧
    key.commits.head? = some ((11 : ZMod L) • basePt) := by
  obtain ⟨enc, dec, hc⟩ := RunsExample.exists_codec (VssP.Deal (ZMod L) EdPt)
  choose D hD using fun (i : Nat) (hi : i < 2) => C93_pedersen_start sha hash 2 2 RunsExample.key i hi le_rfl le_rfl
    (by decide) 5 [7] (by decide)
  choose D' hD' using fun (i : Nat) (hi : i < 2) => C93_pedersen_start sha hash 2 2 RunsExample.key i hi le_rfl le_rfl
    (by decide) 6 [8] (by decide)
  let E : DkgP.DkgEnv (ZMod L) EdPt := ⟨⟨edSuite sha hash, Toy.prims, ⟨enc, dec⟩⟩, fun _ _ => []⟩
  let N : Net (ZMod L) EdPt := ⟨2, 2, RunsExample.key, fun _ => 5, fun _ => [7], fun _ _ => 1, fun _ _ => 1,
    fun _ _ => 1, fun _ _ => 1, fun i => if h : i < 2 then D i h else D 0 (by decide)⟩
  let M : Net (ZMod L) EdPt := ⟨2, 2, RunsExample.key, fun _ => 6, fun _ => [8], fun _ _ => 1, fun _ _ => 1,
    fun _ _ => 1, fun _ _ => 1, fun i => if h : i < 2 then D' i h else D' 0 (by decide)⟩
  have hN : DkgOk E N := ⟨RunsExample.key_inj, fun i _ => RunsExample.accepted_key i,
    fun _ _ => RunsExample.accepted_one, fun _ _ => RunsExample.accepted_one, fun _ _ => RunsExample.accepted_one,
    fun i hi => by
      have hi' : i < 2 := hi
      show _ = Res.ok (if h : i < 2 then D i h else D 0 (by decide))
      rw [dif_pos hi']
      exact hD i hi'⟩
  have hM : DkgOk E M := ⟨RunsExample.key_inj, fun i _ => RunsExample.accepted_key i,
    fun _ _ => RunsExample.accepted_one, fun _ _ => RunsExample.accepted_one, fun _ _ => RunsExample.accepted_one,
    fun i hi => by
      have hi' : i < 2 := hi
      show _ = Res.ok (if h : i < 2 then D' i h else D' 0 (by decide))
      rw [dif_pos hi']
      exact hD' i hi'⟩
  obtain ⟨secret, key, h1, -, h2, h3, -⟩ := C153_edwards25519 sha hash E rfl Toy.prims_lawful
    ⟨fun _ _ => rfl, fun _ _ _ _ => rfl⟩ N M hN hM ⟨rfl, rfl, fun _ _ => rfl⟩ (fun _ _ dl _ => hc dl) 0 1
    (by decide : 1 < 2) (· == 0) rfl RunsExample.sched RunsExample.sched_ok.1 RunsExample.sched_ok.2 MapOrder.id
  refine ⟨E, N, M, key, rfl, h2, ?_⟩
  rw [h3, h1]
  show some ((∑ j ∈ Finset.range 2, if (j == 0) = true then (6 : ZMod L) else 5) • basePt) = _
  rw [Finset.sum_range_succ, Finset.sum_range_one]
  congr 2

end Kyber.Ed
