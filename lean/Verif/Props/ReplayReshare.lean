/-
C153 for resharings: messages of an earlier attempt to reshare the same key to the same nodes.
-/
import Verif.Props.DkgReshareHonest

namespace Kyber.Props

open Kyber.Poly Kyber.VssP Kyber.DkgP Kyber.Spec

variable {F G : Type} [Field F] [AddCommGroup G] [DecidableEq G]

/-- Two resharings of one key, from one old group to one new group. -/
structure SameResharing (N M : ReNet F G) : Prop where
  n : M.n = N.n
  m : M.m = N.m
  t : M.t = N.t
  oldT : M.oldT = N.oldT
  f : M.f = N.f
  xo : ∀ j < N.n, M.xo j = N.xo j
  xn : ∀ i < N.m, M.xn i = N.xn i

/-- The call made at new node `i` of the resharing `N` when, for the old nodes in `old`, the deal and the responses
delivered are those of the resharing `M`. -/
def replayedNew [SMul F G] (E : DkgEnv F G) (N M : ReNet F G) (old : Nat → Bool) (z : F) (i : Nat) : HMsg → DCall F G
  | .deal j => .deal (if old j then M.dealMsg E j i else N.dealMsg E j i) (N.vk i j) z
  | .resp j l => .response (if old j then M.respMsg E j l else N.respMsg E j l) z
  | m => N.callNew E z i m

namespace ReplayS

open Classical in
/-- The resharing in which the old nodes in `old` are those of `M`. A node other than `i` that belongs to both groups
has the generator of its old node. -/
noncomputable def mix (N M : ReNet F G) (old : Nat → Bool) (i : Nat) : ReNet F G where
  n := N.n
  m := N.m
  t := N.t
  oldT := N.oldT
  f := N.f
  xo := N.xo
  xn := N.xn
  draws j := if old j then M.draws j else N.draws j
  dh j := if old j then M.dh j else N.dh j
  k j := if old j then M.k j else N.k j
  rnd j := if old j then M.rnd j else N.rnd j
  vk l j := if old j && l != i then M.vk l j else N.vk l j
  oc j := if old j then M.oc j else N.oc j
  nc l := if l ≠ i ∧ ∃ j < N.n, old j = true ∧ N.xn l = N.xo j then M.nc l else N.nc l
  O j := if old j then M.O j else N.O j
  D l := if l ≠ i ∧ ∃ j < N.n, old j = true ∧ N.xn l = N.xo j then M.D l else N.D l

section

variable [SMul F G]

theorem oldPubs_eq {E : DkgEnv F G} {N M : ReNet F G} (hg : SameResharing N M) : M.oldPubs E = N.oldPubs E := by
  unfold ReNet.oldPubs
  rw [hg.n]
  exact List.map_congr_left fun i hi => by rw [hg.xo i (List.mem_range.1 hi)]

theorem newPubs_eq {E : DkgEnv F G} {N M : ReNet F G} (hg : SameResharing N M) : M.newPubs E = N.newPubs E := by
  unfold ReNet.newPubs
  rw [hg.m]
  exact List.map_congr_left fun i hi => by rw [hg.xn i (List.mem_range.1 hi)]

theorem agrees {E : DkgEnv F G} {N M N' : ReNet F G} (hg : SameResharing N M) {x : F} {c : Config F G}
    (h : M.Agrees E x c) (h1 : N'.oldPubs E = N.oldPubs E) (h2 : N'.newPubs E = N.newPubs E) (h3 : N'.t = N.t)
    (h4 : N'.oldT = N.oldT) (h5 : N'.f = N.f) : N'.Agrees E x c where
  longterm := h.longterm
  oldNodes := by rw [h.oldNodes, oldPubs_eq hg, h1]
  newNodes := by rw [h.newNodes, newPubs_eq hg, h2]
  threshold := by rw [h.threshold, hg.t, h3]
  oldThreshold := by rw [h.oldThreshold, hg.oldT, h4]
  coeffs cs hc := by rw [h.coeffs cs hc]; unfold ReNet.commits; rw [hg.f, h5]
  share sh hc := by rw [h.share sh hc]; unfold ReNet.commits; rw [hg.f, h5]

theorem same_refl (N : ReNet F G) : SameResharing N N := ⟨rfl, rfl, rfl, rfl, rfl, fun _ _ => rfl, fun _ _ => rfl⟩

theorem xo_inj {E : DkgEnv F G} {N : ReNet F G} (h : N.Honest E) {j j' : Nat} (hj : j < N.n) (hj' : j' < N.n)
    (he : N.xo j = N.xo j') : j = j' := by
  have hn := h.nodupO
  unfold ReNet.oldPubs at hn
  exact List.inj_on_of_nodup_map hn (List.mem_range.2 hj) (List.mem_range.2 hj') (by rw [he])

theorem mix_honest {E : DkgEnv F G} {N M : ReNet F G} (hN : N.Honest E) (hM : M.Honest E) (hg : SameResharing N M)
    (old : Nat → Bool) (i : Nat) (hold : ∀ j < N.n, N.xn i = N.xo j → old j = false) :
    (mix N M old i).Honest E where
  nodupO := hN.nodupO
  nodupN := hN.nodupN
  xo := hN.xo
  xn := hN.xn
  k a b := by
    show Usable E.suite ((if old a then M.k a else N.k a) b • E.suite.base)
    split
    · exact hM.k a b
    · exact hN.k a b
  rnd a b := by
    show Usable E.suite ((if old a then M.rnd a else N.rnd a) b • E.suite.base)
    split
    · exact hM.rnd a b
    · exact hN.rnd a b
  vk a b := by
    show Usable E.suite ((if old b && a != i then M.vk a b else N.vk a b) • E.suite.base)
    split
    · exact hM.vk a b
    · exact hN.vk a b
  f := hN.f
  agreeO j hj := by
    have hj' : j < N.n := hj
    show (mix N M old i).Agrees E (N.xo j) (if old j then M.oc j else N.oc j)
    split
    · rw [← hg.xo j hj']
      exact agrees hg (hM.agreeO j (by rw [hg.n]; exact hj')) rfl rfl rfl rfl rfl
    · exact agrees (same_refl N) (hN.agreeO j hj') rfl rfl rfl rfl rfl
  agreeN l hl := by
    have hl' : l < N.m := hl
    unfold mix
    simp only
    split
    · rw [← hg.xn l hl']
      exact agrees hg (hM.agreeN l (by rw [hg.m]; exact hl')) rfl rfl rfl rfl rfl
    · exact agrees (same_refl N) (hN.agreeN l hl') rfl rfl rfl rfl rfl
  holds j hj := by
    have hj' : j < N.n := hj
    show ∃ sh, (if old j then M.oc j else N.oc j).share = some sh ∧ sh.share.v = polyVal N.f ((j + 1 : Nat) : F)
    split
    · rw [← hg.f]
      exact hM.holds j (by rw [hg.n]; exact hj')
    · exact hN.holds j hj'
  startO j hj := by
    have hj' : j < N.n := hj
    show ∃ s, newDistKeyHandler E.suite (if old j then M.oc j else N.oc j) s (if old j then M.draws j else N.draws j) =
      .ok (if old j then M.O j else N.O j)
    split
    · exact hM.startO j (by rw [hg.n]; exact hj')
    · exact hN.startO j hj'
  startN l hl := by
    have hl' : l < N.m := hl
    unfold mix
    simp only
    split
    · exact hM.startN l (by rw [hg.m]; exact hl')
    · exact hN.startN l hl'
  knows l hl := by
    have hl' : l < N.m := hl
    unfold mix
    simp only
    split
    · exact hM.knows l (by rw [hg.m]; exact hl')
    · exact hN.knows l hl'
  both l hl := by
    have hl' : l < N.m := hl
    unfold mix
    simp only
    split
    · rename_i hc
      intro hs
      obtain ⟨-, j, hj, hoj, hx⟩ := hc
      obtain ⟨j', hj', hx', hD⟩ := hM.both l (by rw [hg.m]; exact hl') hs
      rw [hg.n] at hj'
      rw [hg.xn l hl', hg.xo j' hj', hx] at hx'
      obtain rfl := xo_inj hN hj hj' hx'
      exact ⟨j, hj, hx, by rw [if_pos hoj]; exact hD⟩
    · rename_i hc
      intro hs
      obtain ⟨j, hj, hx, hD⟩ := hN.both l hl' hs
      refine ⟨j, hj, hx, ?_⟩
      have hoj : old j = false := by
        by_cases hli : l = i
        · subst hli
          exact hold j hj hx
        · cases ho : old j
          · rfl
          · exact absurd ⟨hli, j, hj, ho, hx⟩ hc
      rw [hoj]
      exact hD

theorem mix_D (N M : ReNet F G) (old : Nat → Bool) (i : Nat) : (mix N M old i).D i = N.D i := by
  unfold mix
  simp

theorem mix_dealMsg {E : DkgEnv F G} {N M : ReNet F G} (hg : SameResharing N M) (old : Nat → Bool) (i : Nat) {j : Nat}
    (hj : j < N.n) (l : Nat) :
    (mix N M old i).dealMsg E j l = if old j then M.dealMsg E j l else N.dealMsg E j l := by
  cases ho : old j
  · simp only [ReNet.dealMsg, ReNet.enc, mix, ho, Bool.false_eq_true, if_false]
  · simp only [ReNet.dealMsg, ReNet.enc, mix, ho, if_true, hg.xo j hj]

theorem mix_respMsg {E : DkgEnv F G} {N M : ReNet F G} (hg : SameResharing N M) (old : Nat → Bool) {i : Nat} {l : Nat}
    (hl : l < N.m) (hli : l ≠ i) (j : Nat) :
    (mix N M old i).respMsg E j l = if old j then M.respMsg E j l else N.respMsg E j l := by
  have hne : (l != i) = true := by simpa using hli
  cases ho : old j
  · simp only [ReNet.respMsg, mix, ho, Bool.false_eq_true, if_false, Bool.false_and]
  · simp only [ReNet.respMsg, mix, ho, hne, if_true, Bool.and_self, hg.xn l hl]

end

end ReplayS

section

variable [DistribSMul F G]

/-- C153 for resharings. Two attempts to reshare one key from one old group to one new group, for example because the
first was broken off. New node `i` gets, for any set `old` of old nodes other than itself, the deal and the responses
of the first attempt, in any order; it may call `deals` itself. It is certified, and the public key is the right one; but its share belongs to
the polynomial put together from those of both attempts. -/
theorem C153_reshare (q : Nat) [CharP F q] (E : DkgEnv F G) (hS : E.suite.Lawful)
    (hP : E.prims.Lawful) (hO : PrimsOk E) (N M : ReNet F G) (hN : N.Honest E) (hM : M.Honest E)
    (hg : SameResharing N M)
    (hC : ∀ j < N.n, ∀ dl ∈ (N.O j).dealer.deals ++ (M.O j).dealer.deals, E.codec.dec (E.codec.enc dl) = some dl)
    (z : F) (hq : N.n ≤ q) (hf : N.f.length ≤ N.n) (hT0 : N.oldT ≤ N.n)
    (T : Nat) (hT : T = if N.t ≠ 0 then N.t else minimumT N.m) (i : Nat) (hi : i < N.m) (old : Nat → Bool)
    (hold : ∀ j < N.n, N.xn i = N.xo j → old j = false) (s : List HMsg) (hs : ReNet.Sched (N.WantedNew i) s)
    (hd : ReNet.Done (N.WantedNew i) s) (hself : HMsg.deals ∈ s → old (N.D i).oidx = false) (ord : MapOrder) :
    (dRun E (N.D i) (s.map (replayedNew E N M old z i))).certified ord = true ∧
    ∃ key, (dRun E (N.D i) (s.map (replayedNew E N M old z i))).distKeyShare E.suite ord = .ok key ∧
      key.publicKey = .ok (N.f.getD 0 0 • E.suite.base) ∧
      key.share = ⟨i, polyVal (combine (F := F) (Finset.range N.f.length)
        (fun j => if old j then M.poly T j else N.poly T j) T) ((i + 1 : Nat) : F)⟩ ∧
      key.commits = (combine (F := F) (Finset.range N.f.length)
        (fun j => if old j then M.poly T j else N.poly T j) T).map (fun a => a • E.suite.base) := by
  have hcall : s.map ((ReplayS.mix N M old i).callNew E z i) = s.map (replayedNew E N M old z i) := by
    refine List.map_congr_left fun m hm => ?_
    have hw := hs.wanted m hm
    cases m with
    | deals =>
      show DCall.deals _ _ _ _ _ = DCall.deals _ _ _ _ _
      rw [ReplayS.mix_D]
      simp only [ReplayS.mix, hself hm, Bool.false_eq_true, if_false]
    | deal j =>
      show DCall.deal _ _ _ = DCall.deal _ _ _
      rw [ReplayS.mix_dealMsg hg old i hw i]
      congr 1
      show (if old j && i != i then M.vk i j else N.vk i j) = N.vk i j
      simp
    | resp j l =>
      show DCall.response _ _ = DCall.response _ _
      rw [ReplayS.mix_respMsg hg old hw.2.1 hw.2.2 j]
    | timeout => rfl
  obtain ⟨-, hfin⟩ := C100_honest_run q E hS hP hO (ReplayS.mix N M old i) (ReplayS.mix_honest hN hM hg old i hold)
    (by
      intro j hj dl hdl
      refine hC j hj dl ?_
      have hdl : dl ∈ (if old j then M.O j else N.O j).dealer.deals := hdl
      split at hdl
      · exact List.mem_append_right _ hdl
      · exact List.mem_append_left _ hdl) z hq hf hT0 T hT i hi s hs
  obtain ⟨-, -, hcert, key, h1, h2, h3, h4⟩ := hfin hd ord
  rw [ReplayS.mix_D, hcall] at hcert h1
  have hpoly : (ReplayS.mix N M old i).newPoly T = combine (F := F) (Finset.range N.f.length)
      (fun j => if old j then M.poly T j else N.poly T j) T := by
    unfold ReNet.newPoly
    congr 1
    funext j
    unfold ReNet.poly
    cases ho : old j <;> simp [ReplayS.mix, ho, hg.f]
  rw [hpoly] at h2 h3
  exact ⟨hcert, key, h1, h4, h3, h2⟩

end

namespace DkgPExample

open Kyber.Toy

/-- An earlier attempt at the resharing `rnet`: the same groups and the same key, other random polynomials. -/
def rO2 (j : Nat) : Dkg (ZMod 11) (ZMod 11) :=
  getDkg (newDistKeyHandler envDI.suite (roc j) 0 ([[2], [9]].getD j []))
@[inherit_doc rO2] def rnet2 : ReNet (ZMod 11) (ZMod 11) where
  n := 2
  m := 2
  t := 2
  oldT := 2
  f := [1, 4]
  xo j := [3, 5].getD j 1
  xn i := [2, 3].getD i 1
  draws j := [[2], [9]].getD j []
  dh j i := ((j + i + 2 : Nat) : ZMod 11)
  k _ _ := 5
  rnd _ _ := 3
  vk _ _ := 6
  oc := roc
  nc := rnc
  O := rO2
  D i := if i = 0 then getDkg (newDistKeyHandler envDI.suite (rnc 0) 0 []) else rO2 0

theorem rnet2_honest : rnet2.Honest envDI where
  nodupO := by decide +kernel
  nodupN := by decide +kernel
  xo := by unfold Usable; decide +kernel
  xn := by unfold Usable; decide +kernel
  k j i := by unfold Usable rnet2; simp only; decide +kernel
  rnd j i := by unfold Usable rnet2; simp only; decide +kernel
  vk j i := by unfold Usable rnet2; simp only; decide +kernel
  f := by decide
  agreeO j hj := by
    have hj : j < 2 := hj
    have : j = 0 ∨ j = 1 := by omega
    rcases this with rfl | rfl <;>
      exact ⟨rfl, by decide +kernel, by decide +kernel, rfl, rfl, (fun cs h => by cases h),
        (fun sh h => by cases h; decide +kernel)⟩
  agreeN i hi := by
    have hi : i < 2 := hi
    have : i = 0 ∨ i = 1 := by omega
    rcases this with rfl | rfl
    · exact ⟨rfl, by decide +kernel, by decide +kernel, rfl, rfl,
        (fun cs h => by cases h; decide +kernel), (fun sh h => by cases h)⟩
    · exact ⟨rfl, by decide +kernel, by decide +kernel, rfl, rfl, (fun cs h => by cases h),
        (fun sh h => by cases h; decide +kernel)⟩
  holds j hj := by
    have hj : j < 2 := hj
    have : j = 0 ∨ j = 1 := by omega
    rcases this with rfl | rfl
    · exact ⟨_, rfl, by decide +kernel⟩
    · exact ⟨_, rfl, by decide +kernel⟩
  startO j hj := by
    have hj : j < 2 := hj
    have : j = 0 ∨ j = 1 := by omega
    rcases this with rfl | rfl
    · exact ⟨0, rfl⟩
    · exact ⟨0, rfl⟩
  startN i hi := by
    have hi : i < 2 := hi
    have : i = 0 ∨ i = 1 := by omega
    rcases this with rfl | rfl
    · exact ⟨0, [], rfl⟩
    · exact ⟨0, [2], rfl⟩
  knows := by decide +kernel
  both i hi hs := by
    have hi : i < 2 := hi
    have : i = 0 ∨ i = 1 := by omega
    rcases this with rfl | rfl
    · cases hs
    · exact ⟨0, by decide, rfl, rfl⟩

/-- `C153_reshare`: the node that stays gets the deal and the response about old node 1 from the earlier attempt. The
polynomials of the two attempts are `[1, 5]` and `[1, 6]`, that of its share is `[1, 3]`. -/
example : rnet.newPoly 2 = [1, 5] ∧ rnet2.newPoly 2 = [1, 6] ∧ ∃ key,
    (dRun envDI (rnet.D 1) (rsched.map (replayedNew envDI rnet rnet2 (· == 1) 1 1))).distKeyShare envDI.suite
      MapOrder.rev = .ok key ∧
    key.publicKey = .ok ((1 : ZMod 11) • envDI.suite.base) ∧ key.share = ⟨1, 7⟩ ∧
    polyVal (rnet.newPoly 2) 2 = (0 : ZMod 11) ∧ polyVal (rnet2.newPoly 2) 2 = (2 : ZMod 11) := by
  obtain ⟨-, key, h1, h2, h3, -⟩ := C153_reshare 11 envDI envDI_lawful envDI_ok.1 envDI_ok.2.2 rnet rnet2
    rnet_honest rnet2_honest ⟨rfl, rfl, rfl, rfl, rfl, fun _ _ => rfl, fun _ _ => rfl⟩
    (fun _ _ _ _ => envDI_ok.2.1 _) 1 (by decide) (by decide) (by decide) 2 rfl 1 (by decide) (· == 1)
    (by decide) rsched rsched_ok.1 rsched_ok.2 (fun _ => rfl) MapOrder.rev
  refine ⟨by decide +kernel, by decide +kernel, key, h1, h2, ?_, by decide +kernel, by decide +kernel⟩
  rw [h3]
  decide +kernel

end DkgPExample

end Kyber.Props
