/-
C133: the last participant to deal in the Pedersen DKG (`src/share/dkg/pedersen/dkg.rs`) knows what the key
will be for each choice of its own secret.
-/
import Verif.Props.Setup

set_option linter.unusedSectionVars false

namespace Kyber.Spec

open Kyber.Poly Kyber.VssP Kyber.DkgP

variable {F G : Type} [Field F] [AddCommGroup G] [SMul F G] [DecidableEq G]

/-- The deals of every honest group of `n` participants are read back from their binary form. -/
def Net.ReadsBack (E : DkgEnv F G) (n : Nat) : Prop :=
  ∀ N : Net F G, N.Honest E → N.n = n → ∀ j < n, ∀ dl ∈ (N.D j).dealer.deals, E.codec.dec (E.codec.enc dl) = some dl

/-- The public key of the secret of a dealer, as the owner of the key `x` reads it in the deal it was sent. -/
def peek (E : DkgEnv F G) (x : F) (pubs : List G) (dealer : G) (dd : DkgP.Deal G) : Option G :=
  match VssP.newVerifier E.suite x dealer pubs with
  | .ok v =>
    match v.decryptDeal E.toEnv dd.deal with
    | .ok dl => dl.commitments.head?
    | _ => none
  | _ => none

/-- What the others contribute to the key, as the owner of the key `x` reads it in the deals it was sent. -/
def foresee (E : DkgEnv F G) (x : F) (pubs : List G) (msgs : List (DkgP.Deal G)) : G :=
  (msgs.map (fun dd => (peek E x pubs (pubs.getD dd.index 0) dd).getD 0)).sum

/-- The deals that participant `j` is sent. -/
def Net.received (E : DkgEnv F G) (N : Net F G) (j : Nat) : List (DkgP.Deal G) :=
  ((List.range N.n).filter (fun l => decide (l ≠ j))).map (fun l => N.dealMsg E l j)

/-- Participant `j` chose another secret. -/
def Net.choose (N : Net F G) (j : Nat) (s : F) (d : Dkg F G) : Net F G :=
  { N with
    sec := fun l => if l = j then s else N.sec l
    D := fun l => if l = j then d else N.D l }

end Kyber.Spec

namespace Kyber.Props

open Kyber Kyber.Poly Kyber.Spec Kyber.VssP Kyber.DkgP

variable {F G : Type} [Field F] [AddCommGroup G] [DecidableEq G] [DistribSMul F G]

/-- A participant may choose another secret. -/
theorem choose_honest (E : DkgEnv F G) (N : Net F G) (h : N.Honest E) (j : Nat) (hj : j < N.n) (s : F) :
    ∃ d, (N.choose j s d).Honest E := by
  obtain ⟨d, hd⟩ : ∃ d, newDistKeyGenerator E.suite (N.x j) (N.pubs E) N.t s (N.draws j) = .ok d := by
    obtain ⟨-, hdl, -⟩ := honest_new h.fair hj trivial
    rw [(newDistKeyHandler_ok (h.start j hj)).newT] at hdl
    obtain ⟨-, hdr, -⟩ := newDealer_ok hdl
    exact (C122_new_handler E.suite _ s (N.draws j) hdr).2.2.2.2.2.2.2
      ((C122_new_handler E.suite _ (N.sec j) (N.draws j) hdr).2.2.2.2.2.2.1 ⟨_, h.start j hj⟩)
  refine ⟨d, h.nodup, h.x, h.k, h.rnd, h.vk, ?_⟩
  intro i hi
  by_cases hij : i = j
  · subst hij
    simp only [Net.choose, if_pos]
    exact hd
  · simp only [Net.choose, if_neg hij]
    exact h.start i hi

/-- C133: in an honest run the key is what participant `j` reads in the deals of the others, plus the public
key of its own secret. -/
theorem C133_foreseen (E : DkgEnv F G) (hS : E.suite.Lawful) (hP : E.prims.Lawful) (hO : PrimsOk E) (N : Net F G)
    (h : N.Honest E) (hC : ∀ j < N.n, ∀ dl ∈ (N.D j).dealer.deals, E.codec.dec (E.codec.enc dl) = some dl)
    (j : Nat) (hj : j < N.n) (z : F) (i : Nat) (hi : i < N.n) (s : List HMsg) (hs : Schedule N.n i s)
    (hc : Complete N.n i s) (ord : MapOrder) :
    ∃ k, (dRun E (N.D i) (s.map (HMsg.call E N z i))).distKeyShare E.suite ord = .ok k ∧
      k.commits.head? = some (foresee E (N.x j) (N.pubs E) (N.received E j) + N.sec j • E.suite.base) := by
  refine ⟨_, ((C33_honest_run E hS hP hO N h hC z _ rfl i hi s hs).2 hc ord).2, ?_⟩
  set T := if N.t ≠ 0 then N.t else minimumT N.n with hT
  have hdl : ∀ j < N.n, (N.D j).dealer.secretCommits = (netPoly N T j).map (fun c => c • E.suite.base) ∧ 2 ≤ T := by
    intro j hj
    obtain ⟨-, hdl, -⟩ := honest_new h.fair hj trivial
    have hnt : (N.D j).newT = T := by
      rw [(newDistKeyHandler_ok (h.start j hj)).newT, hT, pubs_length]
    rw [hnt] at hdl
    obtain ⟨hv, hdr, -, -, -, -, -, h6, h7, -⟩ := newDealer_ok hdl
    unfold validT at hv
    simp only [Bool.and_eq_true, decide_eq_true_eq, pubs_length] at hv
    exact ⟨h7, hv.1.1⟩
  have hpeek : ∀ l ∈ (Finset.range N.n).erase j,
      (peek E (N.x j) (N.pubs E) ((N.pubs E).getD l 0) (N.dealMsg E l j)).getD 0 = N.sec l • E.suite.base := by
    intro l hl
    have hln : l < N.n := Finset.mem_range.1 (Finset.mem_of_mem_erase hl)
    have hget : (N.pubs E).getD l 0 = N.x l • E.suite.base := by
      rw [List.getD_eq_getElem?_getD, pubs_get E N hln]; rfl
    unfold peek
    rw [hget, newVerifier_findPub E.suite (N.x j) _ _ j (findPub_nodup h.nodup (pubs_get E N hj))]
    simp only
    have hcv := convincing hS.base_lin h.fair hln
    obtain ⟨deal', hdeal', hdec⟩ := decrypt_encrypted E.toEnv hS hP (hC l hln)
      (v := ⟨N.x j, N.x j • E.suite.base, N.x l • E.suite.base, j, N.pubs E,
        context E.suite (N.x l • E.suite.base) (N.pubs E), newEmptyAggregator (N.pubs E)⟩)
      (by rw [hcv.verifiers]; exact pubs_get E N hj) (by rw [hcv.long]) (by rw [hcv.ctx])
      (by rw [hcv.long]; exact h.x l hln) (h.k l j) (enc_ok hS hP hO h.fair hln hj)
    rw [plain_deal hS.base_lin h.fair hln hj] at hdeal'
    cases hdeal'
    have : (N.dealMsg E l j).deal = N.enc E l j := rfl
    rw [this, hdec]
    show ((N.D l).dealer.secretCommits.head?).getD 0 = _
    rw [(hdl l hln).1]
    rfl
  have hf : foresee E (N.x j) (N.pubs E) (N.received E j) =
      ∑ l ∈ (Finset.range N.n).erase j, N.sec l • E.suite.base := by
    unfold foresee Net.received
    rw [List.map_map]
    have he : (Finset.range N.n).erase j = ((List.range N.n).filter (fun l => decide (l ≠ j))).toFinset := by
      ext l
      simp only [Finset.mem_erase, Finset.mem_range, List.mem_toFinset, List.mem_filter, List.mem_range, decide_eq_true_eq]
      exact and_comm
    rw [he, List.sum_toFinset _ (List.nodup_range.filter _)]
    refine congrArg _ (List.map_congr_left (fun l hl => hpeek l ?_))
    rw [he]
    exact List.mem_toFinset.2 hl
  rw [hf, add_comm (Finset.sum _ _), Finset.add_sum_erase _ (fun l => N.sec l • E.suite.base) (Finset.mem_range.2 hj), ← hS.base_lin.sum]
  obtain ⟨T', hT'⟩ : ∃ T', T = T' + 1 := ⟨T - 1, by have := (hdl j hj).2; omega⟩
  show ((sumPoly N T).map (fun c => c • E.suite.base)).head? = _
  unfold sumPoly
  rw [hT', List.range_succ_eq_map]
  rfl

/-- C133, what holds: as long as the choices of the others do not depend on the secret of `l`, every key can come
out: for every value `a` there is a secret of `l` for which, nothing else being changed, every participant ends
up with the key `a • B`. -/
theorem C133_open_partial (E : DkgEnv F G) (hS : E.suite.Lawful) (hP : E.prims.Lawful) (hO : PrimsOk E) (N : Net F G)
    (h : N.Honest E) (hC : Net.ReadsBack E N.n) (l : Nat) (hl : l < N.n) (a : F) :
    ∃ s d, let N' := N.choose l s d
      N'.Honest E ∧ (∀ j ≠ l, N'.sec j = N.sec j ∧ N'.D j = N.D j) ∧
      ∀ (z : F) (i : Nat), i < N.n → ∀ msgs : List HMsg, Schedule N.n i msgs → Complete N.n i msgs →
        ∀ ord : MapOrder, ∃ k, (dRun E (N'.D i) (msgs.map (HMsg.call E N' z i))).distKeyShare E.suite ord = .ok k ∧
          k.commits.head? = some (a • E.suite.base) := by
  obtain ⟨d, hN⟩ := choose_honest E N h l hl (a - ∑ j ∈ (Finset.range N.n).erase l, N.sec j)
  refine ⟨_, d, hN, fun j hj => ⟨if_neg hj, if_neg hj⟩, fun z i hi msgs hs hc ord => ?_⟩
  refine ⟨_, ((C33_honest_run E hS hP hO _ hN (hC _ hN rfl) z _ rfl i hi msgs hs).2 hc ord).2, ?_⟩
  set T := if (N.choose l (a - ∑ j ∈ (Finset.range N.n).erase l, N.sec j) d).t ≠ 0 then
    (N.choose l (a - ∑ j ∈ (Finset.range N.n).erase l, N.sec j) d).t else
    minimumT (N.choose l (a - ∑ j ∈ (Finset.range N.n).erase l, N.sec j) d).n with hT
  have hT2 : 2 ≤ T := by
    obtain ⟨-, hdl, -⟩ := honest_new h.fair hl trivial
    obtain ⟨hv, -⟩ := newDealer_ok hdl
    rw [(newDistKeyHandler_ok (h.start l hl)).newT] at hv
    unfold validT at hv
    simp only [Bool.and_eq_true, decide_eq_true_eq, pubs_length] at hv
    exact hv.1.1
  obtain ⟨T', hT'⟩ : ∃ T', T = T' + 1 := ⟨T - 1, by omega⟩
  show ((sumPoly _ T).map (fun c => c • E.suite.base)).head? = _
  unfold sumPoly
  rw [hT', List.range_succ_eq_map]
  show some ((∑ j ∈ Finset.range N.n, if j = l then a - ∑ j ∈ (Finset.range N.n).erase l, N.sec j else N.sec j) •
    E.suite.base) = _
  rw [← Finset.add_sum_erase _ _ (Finset.mem_range.2 hl), if_pos rfl,
    Finset.sum_congr rfl (g := N.sec) (fun j hj => if_neg (Finset.ne_of_mem_erase hj)), sub_add_cancel]

/-- C133: what participant `j` reads in the deals of the others does not depend on its own choice: among any
candidates it finds one for which the key has any property that some candidate gives, and every participant
ends up with that key. -/
theorem C133_steered (E : DkgEnv F G) (hS : E.suite.Lawful) (hP : E.prims.Lawful) (hO : PrimsOk E) (N : Net F G)
    (h : N.Honest E) (hC : Net.ReadsBack E N.n)
    (j : Nat) (hj : j < N.n) (P : G → Bool) (candidates : List F) (s : F)
    (hs : candidates.find? (fun s => P (foresee E (N.x j) (N.pubs E) (N.received E j) + s • E.suite.base)) =
      some s) :
    ∃ d, let N' := N.choose j s d
      N'.Honest E ∧ (∀ l ≠ j, ∀ i, N'.dealMsg E l i = N.dealMsg E l i) ∧
      ∀ (z : F) (i : Nat), i < N.n → ∀ msgs : List HMsg, Schedule N.n i msgs → Complete N.n i msgs →
        ∀ ord : MapOrder, ∃ k key, (dRun E (N'.D i) (msgs.map (HMsg.call E N' z i))).distKeyShare E.suite ord = .ok k ∧
          k.commits.head? = some key ∧ P key = true := by
  obtain ⟨d, hN⟩ := choose_honest E N h j hj s
  refine ⟨d, ?_⟩
  intro N'
  have hD : ∀ l ≠ j, N'.D l = N.D l := fun l hl => if_neg hl
  have hm : ∀ l ≠ j, ∀ i, N'.dealMsg E l i = N.dealMsg E l i := by
    intro l hl i
    unfold Net.dealMsg Net.enc
    rw [hD l hl]
    rfl
  refine ⟨hN, hm, fun z i hi msgs hsch hcomp ord => ?_⟩
  obtain ⟨k, hk, hkey⟩ := C133_foreseen E hS hP hO N' hN (hC _ hN rfl) j hj z i hi msgs hsch hcomp ord
  refine ⟨k, _, hk, hkey, ?_⟩
  have hfs : foresee E (N'.x j) (N'.pubs E) (N'.received E j) =
      foresee E (N.x j) (N.pubs E) (N.received E j) := by
    have hr : N'.received E j = N.received E j := by
      unfold Net.received
      refine List.map_congr_left (fun l hl => hm l ?_ j)
      simpa using (List.mem_filter.1 hl).2
    rw [hr]
    rfl
  have hsec : N'.sec j = s := if_pos rfl
  rw [hfs, hsec]
  have := List.find?_some hs
  exact this

/-- C133, the intended property: whatever participant `j` makes of the deals it was sent before it draws its
own secret, it cannot make sure that the key has a given property. -/
def C133_statement : Prop :=
  ∀ (F G : Type) [Field F] [AddCommGroup G] [DecidableEq G] [DistribSMul F G] (E : DkgEnv F G),
    E.suite.Lawful → E.prims.Lawful → PrimsOk E → (∀ dl, E.codec.dec (E.codec.enc dl) = some dl) →
    ∀ (N₀ : Net F G), N₀.Honest E → ∀ j < N₀.n, ∀ (choice : List (DkgP.Deal G) → F) (P : G → Bool),
    (∃ a : F, P (a • E.suite.base) = false) →
    ∃ N : Net F G, N.Honest E ∧ N.n = N₀.n ∧ N.t = N₀.t ∧ N.x = N₀.x ∧ N.sec j = choice (N.received E j) ∧
      ∃ (z : F) (i : Nat) (s : List HMsg) (ord : MapOrder) (k : DkgP.DistKeyShare F G) (key : G),
        i < N.n ∧ Schedule N.n i s ∧ Complete N.n i s ∧
        (dRun E (N.D i) (s.map (HMsg.call E N z i))).distKeyShare E.suite ord = .ok k ∧
        k.commits.head? = some key ∧ P key = false

namespace DkgPBias

open Kyber.Toy

/-- The secret with which participant 0 of the toy group makes the key 4. -/
def choice (msgs : List (DkgP.Deal (ZMod 11))) : ZMod 11 :=
  (((List.range 11).map (fun s => (s : ZMod 11))).find? (fun s =>
    decide (foresee envD 3 [6, 10, 4] msgs + s • envD.suite.base = 4))).getD 0

theorem choice_ok : ∀ K : ZMod 11, K + (((List.range 11).map (fun s => (s : ZMod 11))).find? (fun s =>
    decide (K + s • envD.suite.base = 4))).getD 0 • envD.suite.base = 4 := by
  decide +kernel

theorem primsOk : PrimsOk envD := ⟨fun _ _ => rfl, fun _ _ _ _ => rfl⟩

/-- A case for `C133_foreseen`: participant 0 reads 1 + 4 times the base in the deals of the others; the key of
`C33_honest_run` in the same run is 7 + 1 + 4 times the base. -/
example : foresee envD 3 [6, 10, 4] ((net envD).received envD 0) = (1 + 4) * 2 ∧
    choice ((net envD).received envD 0) = 8 := by
  decide +kernel

/-- A case for `C133_steered`: participant 0 wants the key 4 and finds the secret 8. -/
example : ∃ d, let N' := (net envD).choose 0 8 d
    N'.Honest envD ∧ (∀ l ≠ 0, ∀ i, N'.dealMsg envD l i = (net envD).dealMsg envD l i) ∧
    ∀ (z : ZMod 11) (i : Nat), i < 3 → ∀ msgs : List HMsg, Schedule 3 i msgs → Complete 3 i msgs →
      ∀ ord : MapOrder, ∃ k key, (dRun envD (N'.D i) (msgs.map (HMsg.call envD N' z i))).distKeyShare envD.suite ord =
          .ok k ∧ k.commits.head? = some key ∧ decide (key = 4) = true :=
  C133_steered envD lawful prims_lawful primsOk (net envD) DkgPExample.net_honest
    (fun _ _ _ _ _ dl _ => codecP_lawful dl) 0 (by decide)
    (fun K => decide (K = 4)) [1, 2, 8, 5] 8 (by decide +kernel)

/-- A case for `C133_open_partial`: the key 0 comes out for another secret of participant 2. -/
example : ∃ s d, let N' := (net envD).choose 2 s d
    N'.Honest envD ∧ (∀ j ≠ 2, N'.sec j = (net envD).sec j ∧ N'.D j = (net envD).D j) ∧
    ∀ (z : ZMod 11) (i : Nat), i < 3 → ∀ msgs : List HMsg, Schedule 3 i msgs → Complete 3 i msgs →
      ∀ ord : MapOrder, ∃ k, (dRun envD (N'.D i) (msgs.map (HMsg.call envD N' z i))).distKeyShare envD.suite ord =
          .ok k ∧ k.commits.head? = some ((0 : ZMod 11) • envD.suite.base) :=
  C133_open_partial envD lawful prims_lawful primsOk (net envD) DkgPExample.net_honest
    (fun _ _ _ _ _ dl _ => codecP_lawful dl) 2 (by decide) 0

end DkgPBias

open Kyber.Toy DkgPBias in
/-- C133 does not hold: in the toy group participant 0 can make sure that the key is 4. -/
theorem C133_violated : ¬ C133_statement := by
  intro h
  obtain ⟨N, hN, hn, ht, hx, hsec, z, i, s, ord, k, key, hi, hs, hc, hk, hkey, hP⟩ :=
    h (ZMod 11) (ZMod 11) envD lawful prims_lawful primsOk codecP_lawful (net envD) DkgPExample.net_honest 0
      (by decide) choice (fun K => decide (K = 4)) ⟨0, by decide +kernel⟩
  obtain ⟨k', hk', hkey'⟩ := C133_foreseen envD lawful prims_lawful primsOk N hN (fun _ _ dl _ => codecP_lawful dl) 0
    (by rw [hn]; decide) z i hi s hs hc ord
  rw [hk] at hk'
  cases hk'
  rw [hkey] at hkey'
  cases hkey'
  have hpubs : N.pubs envD = [6, 10, 4] := by
    unfold Net.pubs
    rw [hn, hx]
    decide +kernel
  have hx0 : N.x 0 = 3 := by rw [hx]; rfl
  rw [hsec, hpubs, hx0] at hP
  exact absurd (choice_ok (foresee envD 3 [6, 10, 4] (N.received envD 0))) (of_decide_eq_false hP)

end Kyber.Props
