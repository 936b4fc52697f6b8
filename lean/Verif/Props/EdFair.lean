/-
C128: the distributed key on edwards25519 when a dealer uses the cofactor.
-/
import Verif.Props.EdNeighbours
import Verif.Props.EdRuns
import Verif.Props.DkgPedersenFair

namespace Kyber.Ed

open Kyber Kyber.ModInt Kyber.Poly Kyber.Spec Kyber.Props

/-- A Pedersen DKG on edwards25519 in which the participants in `H` follow the protocol, the others
convince them, everybody approves, and `keys i` is what participant `i` of `H` gets. -/
structure FairRun (E : DkgP.DkgEnv (ZMod L) EdPt) (N : Net (ZMod L) EdPt) (H : Nat → Prop)
    (keys : Nat → DkgP.DistKeyShare (ZMod L) EdPt) : Prop where
  suite : ∃ sha hash, E.suite = edSuite sha hash
  prims : E.prims.Lawful
  primsOk : DkgP.PrimsOk E
  codec : ∀ j < N.n, ∀ dl ∈ (N.D j).dealer.deals, E.codec.dec (E.codec.enc dl) = some dl
  small : N.n < L
  fair : N.Fair E H
  run : ∃ (z : ZMod L) (msgs : Nat → List HMsg) (ords : Nat → MapOrder), ∀ i < N.n, H i →
    Schedule N.n i (msgs i) ∧ Complete N.n i (msgs i) ∧
    (dRun E (N.D i) ((msgs i).map (HMsg.call E N z i))).distKeyShare E.suite (ords i) = .ok (keys i)

/-- C128, the intended property: participants who hold enough shares of the distributed key hold the
private key that belongs to it. -/
def C128_statement : Prop :=
  ∀ (E : DkgP.DkgEnv (ZMod L) EdPt) (N : Net (ZMod L) EdPt) (H : Nat → Prop)
    (keys : Nat → DkgP.DistKeyShare (ZMod L) EdPt), FairRun E N H keys →
    ∀ (ord : MapOrder) (sel : List Nat), (∀ i ∈ sel, i < N.n ∧ H i) →
    ∀ i ∈ sel, (keys i).commits.length ≤ sel.toFinset.card →
      ∃ s, recoverSecret ord (sel.map (fun i => some (keys i).share)) (keys i).commits.length = .ok s ∧
        s • basePt = (keys i).commits.getD 0 0

theorem FairRun.facts {E : DkgP.DkgEnv (ZMod L) EdPt} {N : Net (ZMod L) EdPt} {H : Nat → Prop}
    {keys : Nat → DkgP.DistKeyShare (ZMod L) EdPt} (h : FairRun E N H keys) :
    ∃ commits : List EdPt, commits ≠ [] ∧ ∀ i < N.n, H i → (keys i).commits = commits ∧ (keys i).share.i = i ∧
      (⟨none, commits⟩ : PubPoly EdPt).check basePt (keys i).share = .ok true := by
  obtain ⟨sha, hash, hE⟩ := h.suite
  obtain ⟨z, msgs, ords, hrun⟩ := h.run
  have hS : E.suite.Lawful := hE ▸ edSuite_lawful sha hash
  have hb : E.suite.base = basePt := by rw [hE]; rfl
  have hall : ∀ i < N.n, H i → (keys i).commits = (List.range (N.D 0).dealer.secretCommits.length).map
      (fun c => ∑ j ∈ Finset.range N.n, (N.D j).dealer.secretCommits.getD c 0) ∧ (keys i).commits ≠ [] ∧
      (keys i).share.i = i ∧ (⟨none, (keys i).commits⟩ : PubPoly EdPt).check basePt (keys i).share = .ok true := by
    intro i hi hh
    obtain ⟨h1, h2, h3⟩ := hrun i hi hh
    obtain ⟨len, hlen, e⟩ := (((C127_fair_run E hS h.prims h.primsOk N H h.fair h.codec z i hi hh (msgs i) h1).2 h2
      (ords i)).2 (keys i)).1 h3
    obtain ⟨e1, e2, e3⟩ := C127_share_checks E hS h.prims h.primsOk N H h.fair h.codec z i hi hh (msgs i) h1 h2
      (ords i) (keys i) h3
    rw [hb] at e3
    exact ⟨by rw [e, hlen 0 (by omega)], e2, e1, e3⟩
  by_cases hex : ∃ i, i < N.n ∧ H i
  · obtain ⟨i, hi, hh⟩ := hex
    refine ⟨(keys i).commits, (hall i hi hh).2.1, fun l hl hlh => ?_⟩
    have e := (hall l hl hlh).1.trans (hall i hi hh).1.symm
    exact ⟨e, (hall l hl hlh).2.2.1, e ▸ (hall l hl hlh).2.2.2⟩
  · exact ⟨[0], by simp, fun i hi hh => absurd ⟨i, hi, hh⟩ hex⟩

/-- C128: participants that followed the protocol agree on the commitments; any of them, as many as
there are commitments, recover the key up to a point of small order; if their indices form a
progression `a, a + d, ...` with `gcd d 8` dividing `a + 1`, neighbours for example, they recover
the key itself. Missing: other selections, for which it fails (`C128_violated`). -/
theorem C128_progression_partial (E : DkgP.DkgEnv (ZMod L) EdPt) (N : Net (ZMod L) EdPt) (H : Nat → Prop)
    (keys : Nat → DkgP.DistKeyShare (ZMod L) EdPt) (h : FairRun E N H keys) :
    ∃ commits : List EdPt, (∀ i < N.n, H i → (keys i).commits = commits) ∧
    ∀ (ord : MapOrder) (sel : List Nat), (∀ i ∈ sel, i < N.n ∧ H i) → commits.length ≤ sel.toFinset.card →
      ∃ s, recoverSecret ord (sel.map (fun i => some (keys i).share)) commits.length = .ok s ∧
        8 • (s • basePt) = 8 • commits.getD 0 0 ∧
        ∀ a d : Nat, 0 < d → Nat.gcd d 8 ∣ a + 1 → (∀ j < commits.length, a + j * d ∈ sel) →
          s • basePt = commits.getD 0 0 := by
  obtain ⟨commits, hne, hall⟩ := h.facts
  refine ⟨commits, fun i hi hh => (hall i hi hh).1, fun ord sel hsel hcount => ?_⟩
  have hmem : ∀ s ∈ sel.map (fun i => (keys i).share), ∃ i ∈ sel, i < N.n ∧ s = (keys i).share ∧ s.i = i ∧
      (⟨none, commits⟩ : PubPoly EdPt).check basePt s = .ok true := by
    intro s hs
    obtain ⟨i, hi, rfl⟩ := List.mem_map.1 hs
    obtain ⟨h1, h2⟩ := hsel i hi
    obtain ⟨-, e1, e2⟩ := hall i h1 h2
    exact ⟨i, hi, h1, rfl, e1, e2⟩
  have hidx : (sel.map (fun i => (keys i).share)).map (fun s => s.i) = sel := by
    rw [List.map_map]
    conv_rhs => rw [← List.map_id sel]
    refine List.map_congr_left (fun i hi => ?_)
    obtain ⟨h1, h2⟩ := hsel i hi
    exact (hall i h1 h2).2.1
  have hmap : sel.map (fun i => some (keys i).share) = (sel.map (fun i => (keys i).share)).map some := by
    rw [List.map_map]; rfl
  rw [hmap]
  have hlt : ∀ s ∈ sel.map (fun i => (keys i).share), s.i + 1 < L + 1 := by
    intro s hs
    obtain ⟨i, -, h1, -, h2, -⟩ := hmem s hs
    rw [h2]
    exact Nat.succ_lt_succ (lt_trans h1 h.small)
  obtain ⟨s, h1, h2, -⟩ := C92_cofactor_partial ord commits (sel.map (fun i => (keys i).share)) hne
    (fun s hs => (hmem s hs).elim (fun _ h => h.2.2.2.2)) (fun s hs => Nat.lt_of_succ_lt_succ (hlt s hs))
    (by rw [hidx]; exact hcount)
  refine ⟨s, h1, h2, fun a d hd hg hp => ?_⟩
  obtain ⟨s', h3, h4⟩ := C126_progression ord commits (sel.map (fun i => (keys i).share)) hne
    (fun s hs => (hmem s hs).elim (fun _ h => h.2.2.2.2))
    (fun s hs => by
      obtain ⟨i, -, h1, -, h2, -⟩ := hmem s hs
      rw [h2]
      exact lt_of_le_of_lt (Nat.succ_le_of_lt h1) h.small) a d hd hg
    (fun j hj => by
      have hm := hp j hj
      obtain ⟨h5, h6⟩ := hsel _ hm
      exact ⟨_, List.mem_map.2 ⟨_, hm, rfl⟩, (hall _ h5 h6).2.1⟩)
  rw [h1, Res.ok.injEq] at h3
  rw [h3]
  exact h4

/-! ### The attack -/

/-- Commitments with the point of order two added to the first two. -/
noncomputable def shift2 : List EdPt → List EdPt
  | c0 :: c1 :: l => (c0 + t2) :: (c1 + t2) :: l
  | l => l

theorem t2_odd {m : Nat} (hm : m % 2 = 1) : m • t2 = t2 := by
  obtain ⟨k, rfl⟩ : ∃ k, m = k * 2 + 1 := ⟨m / 2, by omega⟩
  rw [add_smul, mul_smul, t2_two, smul_zero, zero_add, one_smul]

/-- A participant with an even index does not notice. -/
theorem shift2_check {C : List EdPt} {s : Share (ZMod L)} (hi : s.i + 1 < L) (he : s.i % 2 = 0)
    (h : (⟨none, C⟩ : PubPoly EdPt).check basePt s = .ok true) :
    (⟨none, shift2 C⟩ : PubPoly EdPt).check basePt s = .ok true := by
  match C with
  | [] => exact h
  | [c] => exact h
  | c0 :: c1 :: l =>
    rw [check_iff (by simp) hi] at h
    rw [shift2, check_iff (by simp) hi, h]
    simp only [intVal, natCast_zsmul]
    rw [show c1 + t2 + (s.i + 1) • intVal l ((s.i + 1 : Nat) : ℤ) =
      (c1 + (s.i + 1) • intVal l ((s.i + 1 : Nat) : ℤ)) + t2 by abel, smul_add _ _ t2, t2_odd (by omega)]
    have : t2 + t2 = 0 := by rw [← two_nsmul]; exact t2_two
    rw [show ∀ p q : EdPt, p + t2 + (q + t2) = p + q + (t2 + t2) by intros; abel, this, add_zero]

theorem shift2_length (C : List EdPt) : (shift2 C).length = C.length := by
  rcases C with _ | ⟨c0, _ | ⟨c1, l⟩⟩
  · rfl
  · rfl
  · simp only [shift2, List.length_cons]

theorem shift2_head (C : List EdPt) (h : 2 ≤ C.length) : (shift2 C).getD 0 0 = C.getD 0 0 + t2 := by
  rcases C with _ | ⟨c0, _ | ⟨c1, l⟩⟩
  · simp at h
  · simp at h
  · simp only [shift2, List.getD_cons_zero]

/-- C128: a participant `j` with an odd index who adds the point of order two to its first two
commitments. The participants with even indices finish, with every call successful and everybody's
approval, and hold a key to which no private key belongs, in particular not the one they recover. -/
theorem C128_attack (sha hash : Bytes → Bytes) (E : DkgP.DkgEnv (ZMod L) EdPt) (hE : E.suite = edSuite sha hash)
    (hP : E.prims.Lawful) (hO : DkgP.PrimsOk E) (N : Net (ZMod L) EdPt) (h : DkgOk E N) (hn : N.n < L) (j : Nat)
    (hj : j < N.n) (hodd : j % 2 = 1) (hC : ∀ l < N.n, ∀ dl ∈ ((N.cheat E j (shift2 (N.D j).dealer.secretCommits)).D l).dealer.deals,
      E.codec.dec (E.codec.enc dl) = some dl) (z : ZMod L) :
    let N' := N.cheat E j (shift2 (N.D j).dealer.secretCommits)
    N'.Fair E (· % 2 = 0) ∧
    ∀ i < N.n, i % 2 = 0 → ∀ s, Schedule N.n i s → Complete N.n i s → ∀ ord,
      (∀ pre m post, s = pre ++ m :: post → m.Succeeds E N' z i (dRun E (N'.D i) (pre.map (HMsg.call E N' z i)))) ∧
      (dRun E (N'.D i) (s.map (HMsg.call E N' z i))).certified ord = true ∧
      ∃ key, (dRun E (N'.D i) (s.map (HMsg.call E N' z i))).distKeyShare E.suite ord = .ok key ∧
        key.commits.length = (N.D j).newT ∧
        key.commits.getD 0 0 = (∑ l ∈ Finset.range N.n, N.sec l) • basePt + t2 ∧
        ∀ x : ZMod L, x • basePt ≠ key.commits.getD 0 0 := by
  intro N'
  have hS : E.suite.Lawful := hE ▸ edSuite_lawful sha hash
  have hb : E.suite.base = basePt := by rw [hE]; rfl
  have hh := h.honest hE
  have hfair : N'.Fair E (· % 2 = 0) := by
    refine C127_cheat E hS N hh _ j hj (by omega) _ (fun i hi he => ?_)
    have hch := (DkgP.convincing hS.base_lin hh.fair hj).check i hi trivial
    rw [hb] at hch ⊢
    exact shift2_check (s := (N.D j).dealer.secretPoly.eval i) (lt_of_le_of_lt (Nat.succ_le_of_lt hi) hn) he hch
  -- the honest commitments
  have hdl : ∀ l < N.n, (N.D l).dealer.secretCommits.length = (N.D j).newT ∧ 2 ≤ (N.D j).newT ∧
      (N.D l).dealer.secretCommits.getD 0 0 = N.sec l • basePt := by
    intro l hl
    obtain ⟨-, hdl, -⟩ := DkgP.honest_new hh.fair hl trivial
    have hTT : (N.D l).newT = (N.D j).newT := by
      rw [(DkgP.newDistKeyHandler_ok (hh.start l hl)).newT, (DkgP.newDistKeyHandler_ok (hh.start j hj)).newT]
    rw [hTT] at hdl
    obtain ⟨hv, hdr, -, -, -, -, -, -, h7, -⟩ := VssP.newDealer_ok hdl
    unfold VssP.validT at hv
    simp only [Bool.and_eq_true, decide_eq_true_eq] at hv
    refine ⟨?_, hv.1.1, ?_⟩
    · clear hn
      rw [h7, List.length_map, List.length_cons, List.length_take]
      omega
    · rw [h7, List.map_cons, List.getD_cons_zero, hb]
  refine ⟨hfair, fun i hi he s hs hcomp ord => ?_⟩
  obtain ⟨h1, h2⟩ := C127_fair_run E hS hP hO N' _ hfair hC z i hi he s hs
  obtain ⟨h3, h4⟩ := h2 hcomp ord
  refine ⟨h1, h3, _, (h4 _).2 ⟨(N.D j).newT, fun l hl => ?_, rfl⟩, ?_⟩
  · by_cases e : l = j
    · simp only [N', Net.cheat, if_pos e]
      rw [shift2_length]
      exact (hdl j hj).1
    · simp only [N', Net.cheat, if_neg e]
      exact (hdl l hl).1
  · have key0 : ((List.range (N.D j).newT).map
        (fun c => ∑ l ∈ Finset.range N'.n, (N'.D l).dealer.secretCommits.getD c 0)).getD 0 0 =
        (∑ l ∈ Finset.range N.n, N.sec l) • basePt + t2 := by
      obtain ⟨T, hT⟩ : ∃ T, (N.D j).newT = T + 1 := ⟨(N.D j).newT - 1, by
        have := (hdl j hj).2.1
        clear hn
        omega⟩
      rw [hT, List.range_succ_eq_map, List.map_cons, List.getD_cons_zero]
      have hterm : ∀ l ∈ Finset.range N.n, (N'.D l).dealer.secretCommits.getD 0 0 =
          N.sec l • basePt + if l = j then t2 else 0 := by
        intro l hl
        have hl := Finset.mem_range.1 hl
        by_cases e : l = j
        · simp only [N', Net.cheat, if_pos e]
          rw [shift2_head _ (by rw [(hdl j hj).1]; exact (hdl j hj).2.1), (hdl j hj).2.2, e]
        · simp only [N', Net.cheat, if_neg e]
          rw [(hdl l hl).2.2, add_zero]
      rw [show N'.n = N.n from rfl, Finset.sum_congr rfl hterm, Finset.sum_add_distrib,
        Finset.sum_ite_eq', if_pos (Finset.mem_range.2 hj), (lin_of_order L_smul_base).sum]
    refine ⟨by rw [List.length_map, List.length_range], key0, fun x hx => ?_⟩
    simp only at hx
    rw [key0] at hx
    have := congrArg (L • ·) hx
    simp only [smul_add, L_smul_act, zero_add] at this
    exact t2_ne (eq_of_parts (by
      rw [smul_zero, show (8 : Nat) = 4 * 2 by rfl, mul_smul, t2_two, smul_zero]) (by rw [← this, smul_zero]))

/-! ### Three participants with the keys 1, -1 and 2 -/

namespace FairExample

open RunsExample (accepted_key accepted_one one_act neg_act exists_codec)

def key (i : Nat) : ZMod L := if i < 2 then RunsExample.key i else ((2 : Nat) : ZMod L)

theorem two_act : ((2 : Nat) : ZMod L) • basePt = 2 • basePt := by
  rw [act_def, val_natCast_L, Nat.mod_eq_of_lt (by decide +kernel)]

theorem accepted_two : Accepted (2 • basePt) := by
  refine ⟨?_, (small_base 2).not.2 (by decide +kernel)⟩
  have := rep_y (nMul_rep bN_rep 2 2 (by decide))
    (n := 15549675580280190176352668710449542251549572066445060580507079593062643049417) (by decide +kernel)
  rw [this, ZMod.val_natCast]
  decide +kernel

theorem accepted_key3 (i : Nat) : Accepted (key i • basePt) := by
  unfold key
  split
  · exact accepted_key i
  · rw [two_act]; exact accepted_two

theorem key_inj3 : ∀ i < 3, ∀ j < 3, key i = key j → i = j := by
  have h1 : ((1 : Nat) : ZMod L) ≠ ((2 : Nat) : ZMod L) := by decide +kernel
  have h2 : (-((1 : Nat) : ZMod L)) ≠ ((2 : Nat) : ZMod L) := by decide +kernel
  have h3 : ((1 : Nat) : ZMod L) ≠ -((1 : Nat) : ZMod L) := by decide +kernel
  rw [Nat.cast_one] at h1 h2 h3
  intro i hi j hj he
  obtain rfl | rfl | rfl : i = 0 ∨ i = 1 ∨ i = 2 := by omega
  · obtain rfl | rfl | rfl : j = 0 ∨ j = 1 ∨ j = 2 := by omega
    · rfl
    · exact absurd he h3
    · exact absurd he h1
  · obtain rfl | rfl | rfl : j = 0 ∨ j = 1 ∨ j = 2 := by omega
    · exact absurd he.symm h3
    · rfl
    · exact absurd he h2
  · obtain rfl | rfl | rfl : j = 0 ∨ j = 1 ∨ j = 2 := by omega
    · exact absurd he.symm h1
    · exact absurd he.symm h2
    · rfl

/-- Everything in a fixed order. -/
def msgs (i : Nat) : List HMsg :=
  HMsg.deals :: ((List.range 3).filter (· ≠ i)).map .deal ++
    ((List.range 3).flatMap (fun j => ((List.range 3).filter (fun l => l ≠ i ∧ l ≠ j)).map (.resp j)))

theorem msgs_ok (i : Nat) (hi : i < 3) : Schedule 3 i (msgs i) ∧ Complete 3 i (msgs i) := by
  have hnd : (msgs i).Nodup := by
    obtain rfl | rfl | rfl : i = 0 ∨ i = 1 ∨ i = 2 := by omega
    all_goals decide
  have hmem : ∀ m, m ∈ msgs i ↔ m.Wanted 3 i ∧ m ≠ .timeout := by
    intro m
    unfold msgs
    cases m <;> simp [HMsg.Wanted, and_assoc]
  exact ⟨⟨fun m hm => ((hmem m).1 hm).1, fun m _ => List.nodup_iff_count_le_one.1 hnd m⟩,
    fun m h1 h2 => (hmem m).2 ⟨h1, h2⟩⟩

/-- The hypotheses of `C128_attack` hold for three participants and threshold 2, with complete histories. -/
theorem net3 (sha hash : Bytes → Bytes) : ∃ (E : DkgP.DkgEnv (ZMod L) EdPt) (N : Net (ZMod L) EdPt),
    E.suite = edSuite sha hash ∧ E.prims.Lawful ∧ (∀ d, E.codec.dec (E.codec.enc d) = some d) ∧ DkgP.PrimsOk E ∧
    DkgOk E N ∧ N.t = 2 ∧ N.n = 3 ∧ ∀ i < N.n, Schedule N.n i (msgs i) ∧ Complete N.n i (msgs i) := by
  obtain ⟨enc, dec, hc⟩ := exists_codec (VssP.Deal (ZMod L) EdPt)
  choose D hD using fun (i : Nat) (hi : i < 3) => C93_pedersen_start sha hash 3 2 key i hi le_rfl (by decide) (by decide) 5 [7]
    (by decide)
  refine ⟨⟨⟨edSuite sha hash, Toy.prims, ⟨enc, dec⟩⟩, fun _ _ => []⟩,
    ⟨3, 2, key, fun _ => 5, fun _ => [7], fun _ _ => 1, fun _ _ => 1, fun _ _ => 1, fun _ _ => 1,
      fun i => if h : i < 3 then D i h else D 0 (by decide)⟩, rfl, Toy.prims_lawful, hc, ⟨fun _ _ => rfl, fun _ _ _ _ => rfl⟩,
    ⟨key_inj3, fun i _ => accepted_key3 i, fun _ _ => accepted_one, fun _ _ => accepted_one, fun _ _ => accepted_one, ?_⟩,
    rfl, rfl, msgs_ok⟩
  intro i hi
  simp only
  rw [dif_pos hi]
  exact hD i hi

end FairExample

/-- C128 is violated by participant 1 of three. -/
theorem C128_violated : ¬ C128_statement := by
  intro hst
  obtain ⟨E, N, hE, hP, hC, hO, h, ht, hn, hm⟩ := FairExample.net3 id id
  have hnL : N.n < L := by rw [hn]; decide +kernel
  obtain ⟨hfair, hatt⟩ := C128_attack id id E hE hP hO N h hnL 1 (by rw [hn]; decide) rfl (fun _ _ dl _ => hC dl) 1
  have : Nonempty (DkgP.DistKeyShare (ZMod L) EdPt) := ⟨⟨[], ⟨0, 0⟩, []⟩⟩
  choose! keys hk using fun (i : Nat) (hi : i < N.n ∧ i % 2 = 0) =>
    (hatt i hi.1 hi.2 _ (hm i hi.1).1 (hm i hi.1).2 MapOrder.id).2.2
  have hrun : FairRun E (N.cheat E 1 (shift2 (N.D 1).dealer.secretCommits)) (· % 2 = 0) keys :=
    ⟨⟨id, id, hE⟩, hP, hO, fun _ _ _ _ => hC _, hnL, hfair, 1, FairExample.msgs, fun _ => MapOrder.id,
      fun i hi he => ⟨(hm i hi).1, (hm i hi).2, (hk i ⟨hi, he⟩).1⟩⟩
  have h0 : (0 : Nat) < N.n ∧ 0 % 2 = 0 := ⟨by rw [hn]; decide, rfl⟩
  have h2 : (2 : Nat) < N.n ∧ 2 % 2 = 0 := ⟨by rw [hn]; decide, rfl⟩
  have hlen : (keys 0).commits.length ≤ ([0, 2] : List Nat).toFinset.card := by
    rw [(hk 0 h0).2.1, (DkgP.newDistKeyHandler_ok ((h.honest hE).start 1 (by rw [hn]; decide))).newT, ht,
      if_pos (show (2 : Nat) ≠ 0 by decide)]
    exact (by decide : (2 : Nat) ≤ ([0, 2] : List Nat).toFinset.card)
  obtain ⟨s, -, hs⟩ := hst E _ _ keys hrun MapOrder.id [0, 2] (by
    intro i hi
    rcases List.mem_pair.1 hi with rfl | rfl
    · exact h0
    · exact h2) 0 (by simp) hlen
  exact (hk 0 h0).2.2.2 s hs

end Kyber.Ed
