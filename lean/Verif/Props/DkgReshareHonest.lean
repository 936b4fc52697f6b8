/-
Property C100 of the Pedersen DKG (`src/share/dkg/pedersen/dkg.rs`): the honest run of a resharing.
-/
import Verif.Lemmas.DkgReshareRun
import Verif.Props.DkgPedersenReshare
import Verif.Props.DkgPedersenQual

set_option linter.unusedSectionVars false

namespace Kyber.Props

open Kyber Kyber.Poly Kyber.Spec Kyber.VssP Kyber.DkgP

variable {F G : Type} [Field F] [AddCommGroup G] [DecidableEq G]

theorem firstT_range {n k : Nat} (h : k ≤ n) : firstT (Finset.range n) k = Finset.range k := by
  unfold firstT
  ext i
  simp only [Finset.mem_filter, Finset.mem_range]
  have hc : i < n → ((Finset.range n).filter (· < i)).card = i := by
    intro hi
    have : (Finset.range n).filter (· < i) = Finset.range i := by
      ext a; simp only [Finset.mem_filter, Finset.mem_range]; omega
    rw [this, Finset.card_range]
  constructor
  · rintro ⟨hi, hlt⟩; rw [hc hi] at hlt; exact hlt
  · intro hi; exact ⟨by omega, by rw [hc (by omega)]; exact hi⟩

section

variable [SMul F G]

/-- C100: a new node certifies every old node once everything has arrived. -/
theorem reshare_certified {E : DkgEnv F G} (hS : E.suite.Lawful) (hP : E.prims.Lawful)
    (hO : PrimsOk E) {N : ReNet F G} (h : N.Honest E)
    (hC : ∀ j < N.n, ∀ dl ∈ (N.O j).dealer.deals, E.codec.dec (E.codec.enc dl) = some dl)
    (z : F) {i : Nat} (hi : i < N.m) (s : List HMsg) (hs : ReNet.Sched (N.WantedNew i) s)
    (hdone : ReNet.Done (N.WantedNew i) s) :
    ∀ j < N.n, ∃ v, (dRun E (N.D i) (s.map (N.callNew E z i))).verifiers.get j = some v ∧
      v.aggregator.deal = some (N.plain j i) ∧ v.aggregator.dealCertified = true ∧
      missing v.aggregator.responses v.aggregator.verifiers.length = ∅ := by
  obtain ⟨hI, -⟩ := rinv_run hS hP hO h hC hi z s hs
  intro j hj
  obtain ⟨v, hv, h1, h2⟩ := hI.ver j hj
  have hgot : HMsg.deal j ∈ s := hdone _ hj (by simp) (by simp)
  rw [if_pos hgot] at h2
  have hall : ∀ l < N.m, ∃ r, rstored E N i s j l = some r ∧ r.status = true := by
    intro l hl
    unfold rstored
    split
    · exact ⟨_, rfl, rfl⟩
    · rename_i hli
      have hli : l ≠ i := fun e => hli ⟨hgot, e⟩
      rw [if_pos (hdone (.resp j l) ⟨hj, hl, hli⟩ (by simp) (by simp))]
      exact ⟨_, rfl, rfl⟩
  refine ⟨v, hv, h2.deal, certified_of_dyn h1 h2 ?_ (by rw [newPubs_length]; exact hall), ?_⟩
  · have hv := (newDealer_ok (old_start h hj).1).1
    unfold validT at hv
    simp only [Bool.and_eq_true, decide_eq_true_eq] at hv
    exact hv.1.2
  · unfold missing
    rw [Finset.filter_eq_empty_iff]
    intro l hl hn
    rw [h1.aggv, newPubs_length] at hl
    obtain ⟨r, hr, -⟩ := hall l (Finset.mem_range.1 hl)
    rw [h2.resp, hr] at hn; cases hn

/-- C100, the old node that leaves: every call succeeds, its deals are those the new nodes receive;
when all responses have arrived it is certified, and it gets no share. -/
theorem C100_leaving (E : DkgEnv F G) (hS : E.suite.Lawful) (hP : E.prims.Lawful) (hO : PrimsOk E)
    (N : ReNet F G) (h : N.Honest E) (z : F) (j : Nat) (hj : j < N.n)
    (hleave : N.xo j • E.suite.base ∉ N.newPubs E)
    (s : List HMsg) (hs : ReNet.Sched N.WantedOld s) :
    (∀ pre m post, s = pre ++ m :: post →
      N.SucceedsOld E z j (dRun E (N.O j) (pre.map (N.callOld E z j))) m) ∧
    (∀ ord k, (dRun E (N.O j) (s.map (N.callOld E z j))).distKeyShare E.suite ord ≠ .ok k) ∧
    (ReNet.Done N.WantedOld s → ∀ ord,
      (dRun E (N.O j) (s.map (N.callOld E z j))).certified ord = true) := by
  obtain ⟨hI, hsucc⟩ := linv_run hS hP hO h hj hleave z s hs
  obtain ⟨sec, h0⟩ := h.startO j hj
  have hst := newDistKeyHandler_ok h0
  have hev := dRun_evolves E (N.O j) (s.map (N.callOld E z j))
  refine ⟨hsucc, ?_, ?_⟩
  · intro ord k hk
    unfold Dkg.distKeyShare at hk
    rw [Res.ite_err_eq_ok, Res.ite_err_eq_ok, hev.canReceive, hst.receive, ← hev.newPresent] at hk
    exact hk.2.1 hI.new
  · intro hdone ord
    obtain ⟨q1, q2, -, q4, -⟩ := C36_qual_leaving E _ _ _ _ h0 (hev.isResharing ▸ hI.re)
      (hev.canIssue ▸ hI.issue) (hev.newPresent ▸ hI.new) (s.map (N.callOld E z j)) ord ord
    refine q4.2 ?_
    have hsub : Finset.range N.n ⊆
        ((dRun E (N.O j) (s.map (N.callOld E z j))).qual ord).toFinset := by
      intro a ha
      rw [Finset.mem_range] at ha
      rw [List.mem_toFinset, q1]
      intro l hl
      rw [(h.agreeO j hj).newNodes, newPubs_length] at hl
      have hauth : Authentic E.suite (N.oc j).newNodes (N.respMsg E a l).response :=
        ⟨_, by rw [(h.agreeO j hj).newNodes]; exact newPubs_get E N hl, rrespMsg_verify hS h hl⟩
      cases hf : firstHeard E.suite (N.oc j).newNodes (s.map (N.callOld E z j)) a l with
      | none =>
        exfalso
        unfold firstHeard at hf
        rw [List.findSome?_eq_none_iff] at hf
        have := hf _ (List.mem_map.2 ⟨.resp a l, hdone _ ⟨ha, hl⟩ (by simp) (by simp), rfl⟩)
        simp only [ReNet.callOld] at this
        rw [if_pos ⟨rfl, rfl, hauth⟩] at this
        cases this
      | some r =>
        refine ⟨r, rfl, ?_⟩
        unfold firstHeard at hf
        obtain ⟨c, hc, he⟩ := List.exists_of_findSome?_eq_some hf
        obtain ⟨m, -, rfl⟩ := List.mem_map.1 hc
        cases m with
        | resp a' l' =>
          simp only [ReNet.callOld] at he
          split at he
          · cases he; rfl
          · cases he
        | deals => simp [ReNet.callOld] at he
        | deal _ => simp [ReNet.callOld] at he
        | timeout => simp [ReNet.callOld] at he
    have hcard := Finset.card_le_card hsub
    rw [Finset.card_range, List.toFinset_card_of_nodup q2] at hcard
    rw [(h.agreeO j hj).oldNodes, oldPubs_length]
    exact hcard

end

section

variable [SMul F G]

/-- C100, the new nodes of an honest resharing. Any numbers of old and new nodes, nodes that stay,
leave and join, any accepted thresholds, any old polynomial `f` with no more coefficients than there are
old nodes; the deals and responses arrive in any order, timeouts and calls of `deals` may come at any time.
Every call succeeds and returns the messages the others receive. When everything has arrived the node is
certified and gets, for every iteration order, the commitments of the new polynomial and its value at the
index of the node. That polynomial does not depend on the node, and has the constant term of `f`. -/
theorem C100_honest_run (q : Nat) [CharP F q] (E : DkgEnv F G) (hS : E.suite.Lawful)
    (hP : E.prims.Lawful) (hO : PrimsOk E) (N : ReNet F G) (h : N.Honest E)
    (hC : ∀ j < N.n, ∀ dl ∈ (N.O j).dealer.deals, E.codec.dec (E.codec.enc dl) = some dl)
    (z : F) (hq : N.n ≤ q) (hf : N.f.length ≤ N.n) (hold : N.oldT ≤ N.n)
    (T : Nat) (hT : T = if N.t ≠ 0 then N.t else minimumT N.m)
    (i : Nat) (hi : i < N.m) (s : List HMsg) (hs : ReNet.Sched (N.WantedNew i) s) :
    (∀ pre m post, s = pre ++ m :: post →
      N.SucceedsNew E z i (dRun E (N.D i) (pre.map (N.callNew E z i))) m) ∧
    (ReNet.Done (N.WantedNew i) s → ∀ ord,
      (N.newPoly T).length = T ∧ (N.newPoly T).getD 0 0 = N.f.getD 0 0 ∧
      (dRun E (N.D i) (s.map (N.callNew E z i))).certified ord = true ∧
      ∃ k, (dRun E (N.D i) (s.map (N.callNew E z i))).distKeyShare E.suite ord = .ok k ∧
        k.commits = (N.newPoly T).map (fun a => a • E.suite.base) ∧
        k.share = ⟨i, polyVal (N.newPoly T) ((i + 1 : Nat) : F)⟩ ∧
        k.publicKey = .ok (N.f.getD 0 0 • E.suite.base)) := by
  obtain ⟨hI, hsucc⟩ := rinv_run hS hP hO h hC hi z s hs
  refine ⟨hsucc, fun hdone ord => ?_⟩
  have hcert := reshare_certified hS hP hO h hC z hi s hs hdone
  obtain ⟨hstat, hvs, -, hco, hnt⟩ := new_start h hi
  obtain ⟨sec, dr, h0⟩ := h.startN i hi
  have ha := h.agreeN i hi
  have hQ : ∀ j, j ∈ Finset.range N.n ↔ Qualified (dRun E (N.D i) (s.map (N.callNew E z i))) j := by
    intro j
    rw [Finset.mem_range]
    constructor
    · intro hj
      obtain ⟨v, hv, -, hc, -⟩ := hcert j hj
      exact ⟨v, hv, hc⟩
    · rintro ⟨v, hv, -⟩
      have hk : j ∈ (dRun E (N.D i) (s.map (N.callNew E z i))).verifiers.keys :=
        AMap.get_isSome.1 (by rw [hv]; rfl)
      rw [(dRun_evolves E (N.D i) _).keys, hvs, startVers_keys, hstat.oldNodes, oldPubs_length] at hk
      exact List.mem_range.1 hk
  have hTi : (N.D i).newT = T := by rw [hnt, hT]
  obtain ⟨r1, r2, k, r3, r4, r5⟩ := C34_honest q E hS.base_lin _ _ _ (N.D i) h0 hstat.re hstat.new
    (by rw [ha.oldNodes, oldPubs_length]; exact hq) N.f h.f hco (s.map (N.callNew E z i)) ord
    (Finset.range N.n) (Finset.range N.f.length) hQ
    (by rw [ha.oldThreshold, Finset.card_range]; exact hold) (by rw [Finset.card_range]; exact hf)
    (firstT_range hf).symm N.oc (fun j => if hj : j < N.n then (h.startO j hj).choose else 0) N.draws N.O
    (by
      intro j hj
      have hj := Finset.mem_range.1 hj
      refine ⟨?_, by rw [(h.agreeO j hj).newNodes, ha.newNodes],
        by rw [(h.agreeO j hj).threshold, ha.threshold], h.holds j hj⟩
      rw [dif_pos hj]
      exact (h.startO j hj).choose_spec)
    (by
      intro j hj
      obtain ⟨v, hv, hd, -⟩ := hcert j (Finset.mem_range.1 hj)
      refine ⟨v, _, hv, hd, ?_⟩
      rw [hstat.nidx]
      exact rplain_deal h (Finset.mem_range.1 hj) hi)
  have hpoly : combine (F := F) (Finset.range N.f.length) (fun j => (N.O j).dealer.secretPoly.coeffs) T =
      N.newPoly T := by
    unfold ReNet.newPoly
    refine combine_congr _ _ (fun j hj => ?_)
    have hj : j < N.n := lt_of_lt_of_le (Finset.mem_range.1 hj) hf
    obtain ⟨o1, -, -, -, -, -, -, -, o9⟩ := old_start h hj
    rw [← hT] at o9
    rw [o9] at o1
    obtain ⟨-, -, -, -, -, -, -, h6, -⟩ := newDealer_ok o1
    rw [h6]
    rfl
  simp only [hTi, hpoly, hstat.nidx] at r1 r2 r4 r5
  have hpos : 0 < T := hTi ▸ newT_pos h0 hstat.new
  refine ⟨r1, r2, ?_, k, r3, r4, r5, ?_⟩
  · refine (C36_certified E _ _ _ (N.D i) h0 hstat.new (by rw [hstat.oldNodes]; exact h.nodupO)
      (s.map (N.callNew E z i)) ord).2 (fun j hj => ?_)
    rw [hI.static.oldNodes, oldPubs_length] at hj
    obtain ⟨v, hv, -, h3, h4⟩ := hcert j hj
    exact ⟨v, hv, h3, h4⟩
  · unfold DistKeyShare.publicKey
    rw [r4]
    cases hp : N.newPoly T with
    | nil => rw [hp] at r1; simp at r1; omega
    | cons a l =>
      rw [hp] at r2
      rw [← r2]
      rfl

/-- C100: any `T` new shares recover the secret of the old group. -/
theorem C100_recover (q : Nat) [CharP F q] (ord : MapOrder) (N : ReNet F G) (T : Nat) (hT : 0 < T)
    (hm : N.m ≤ q) (hf : N.f.length ≤ q)
    (sel : List Nat) (hsel : ∀ i ∈ sel, i < N.m) (hcount : T ≤ sel.toFinset.card) :
    Poly.recoverSecret ord (sel.map (fun i => some ⟨i, polyVal (N.newPoly T) ((i + 1 : Nat) : F)⟩)) T =
      .ok (N.f.getD 0 0) := by
  have hlen : (N.newPoly T).length = T := by simp [ReNet.newPoly, combine]
  have hhead : (N.newPoly T).getD 0 0 = N.f.getD 0 0 := by
    have hinj : Set.InjOn (xc F) (Finset.range N.f.length) :=
      xc_injOn q _ (fun i hi => lt_of_lt_of_le (Finset.mem_range.1 hi) hf)
    unfold ReNet.newPoly
    rw [combine_getD _ _ _ 0 hT, ← weights_polyVal _ hinj N.f (by rw [Finset.card_range])]
    exact Finset.sum_congr rfl (fun i _ => rfl)
  have := C34_recover (G := G) q ord N.f (N.newPoly T) (by rintro he; rw [he] at hlen; simp at hlen; omega) hhead
    (sel.map (fun i => ⟨[], ⟨i, polyVal (N.newPoly T) ((i + 1 : Nat) : F)⟩, []⟩))
    (by intro k hk; obtain ⟨i, -, rfl⟩ := List.mem_map.1 hk; rfl)
    (by intro k hk; obtain ⟨i, hi, rfl⟩ := List.mem_map.1 hk; exact lt_of_lt_of_le (hsel i hi) hm)
    (by rw [hlen, List.map_map]; simpa [Function.comp_def] using hcount)
  rw [hlen, List.map_map] at this
  exact this

end

/-! ## Examples -/

namespace DkgPExample

open Kyber.Toy

/-- Two old nodes with the keys 3 and 5, the old polynomial `[1, 4]`; two new nodes with the keys 2
and 3. The node with key 3 stays, that with key 5 leaves, that with key 2 joins. -/
def roc (j : Nat) : Config (ZMod 11) (ZMod 11) :=
  ⟨[3, 5].getD j 1, [6, 10], none, [4, 6], some ⟨[2, 8], ⟨j, [5, 9].getD j 0⟩, []⟩, 2, 2⟩
@[inherit_doc roc] def rO (j : Nat) : Dkg (ZMod 11) (ZMod 11) :=
  getDkg (newDistKeyHandler envDI.suite (roc j) 0 ([[6], [7]].getD j []))
@[inherit_doc roc] def rnc (i : Nat) : Config (ZMod 11) (ZMod 11) :=
  if i = 0 then ⟨2, [6, 10], some [2, 8], [4, 6], none, 2, 2⟩ else roc 0
@[inherit_doc roc] def rnet : ReNet (ZMod 11) (ZMod 11) where
  n := 2
  m := 2
  t := 2
  oldT := 2
  f := [1, 4]
  xo j := [3, 5].getD j 1
  xn i := [2, 3].getD i 1
  draws j := [[6], [7]].getD j []
  dh j i := ((j + i + 1 : Nat) : ZMod 11)
  k _ _ := 4
  rnd _ _ := 8
  vk _ _ := 5
  oc := roc
  nc := rnc
  O := rO
  D i := if i = 0 then getDkg (newDistKeyHandler envDI.suite (rnc 0) 0 []) else rO 0

theorem rnet_honest : rnet.Honest envDI where
  nodupO := by decide +kernel
  nodupN := by decide +kernel
  xo := by unfold Usable; decide +kernel
  xn := by unfold Usable; decide +kernel
  k j i := by unfold Usable rnet; simp only; decide +kernel
  rnd j i := by unfold Usable rnet; simp only; decide +kernel
  vk j i := by unfold Usable rnet; simp only; decide +kernel
  f := by decide
  agreeO j hj := by
    have hj : j < 2 := hj
    have : j = 0 ∨ j = 1 := by omega
    rcases this with rfl | rfl <;>
      exact ⟨rfl, by decide +kernel, by decide +kernel, rfl, rfl, (fun cs h => by cases h),
        (fun sh h => by cases h; decide +kernel)⟩
  agreeN i hi := by
    have hi : i < 2 := hi
    have : i = 0 ∨ i = 1 := by omega
    rcases this with rfl | rfl
    · exact ⟨rfl, by decide +kernel, by decide +kernel, rfl, rfl,
        (fun cs h => by cases h; decide +kernel), (fun sh h => by cases h)⟩
    · exact ⟨rfl, by decide +kernel, by decide +kernel, rfl, rfl, (fun cs h => by cases h),
        (fun sh h => by cases h; decide +kernel)⟩
  holds j hj := by
    have hj : j < 2 := hj
    have : j = 0 ∨ j = 1 := by omega
    rcases this with rfl | rfl
    · exact ⟨_, rfl, by decide +kernel⟩
    · exact ⟨_, rfl, by decide +kernel⟩
  startO j hj := by
    have hj : j < 2 := hj
    have : j = 0 ∨ j = 1 := by omega
    rcases this with rfl | rfl
    · exact ⟨0, rfl⟩
    · exact ⟨0, rfl⟩
  startN i hi := by
    have hi : i < 2 := hi
    have : i = 0 ∨ i = 1 := by omega
    rcases this with rfl | rfl
    · exact ⟨0, [], rfl⟩
    · exact ⟨0, [6], rfl⟩
  knows := by decide +kernel
  both i hi hs := by
    have hi : i < 2 := hi
    have : i = 0 ∨ i = 1 := by omega
    rcases this with rfl | rfl
    · cases hs
    · exact ⟨0, by decide, rfl, rfl⟩

/-- A complete history of the node that stays: its own deal comes last, a response comes before the
deal it is about. -/
def rsched : List HMsg := [.resp 1 0, .deals, .deal 1, .timeout, .resp 0 0, .deals, .deal 0]

theorem rsched_ok : ReNet.Sched (rnet.WantedNew 1) rsched ∧ ReNet.Done (rnet.WantedNew 1) rsched := by
  refine ⟨⟨?_, ?_⟩, ?_⟩
  · intro m hm
    simp only [rsched, List.mem_cons, List.not_mem_nil, or_false] at hm
    rcases hm with rfl | rfl | rfl | rfl | rfl | rfl | rfl <;> simp [ReNet.WantedNew, rnet]
  · intro m hm hm'
    by_cases hin : m ∈ rsched
    · simp only [rsched, List.mem_cons, List.not_mem_nil, or_false] at hin
      rcases hin with rfl | rfl | rfl | rfl | rfl | rfl | rfl <;> revert hm hm' <;> decide
    · rw [List.count_eq_zero_of_not_mem hin]; omega
  · intro m hw hm hm'
    cases m with
    | deals => exact absurd rfl hm'
    | timeout => exact absurd rfl hm
    | deal j =>
      have hj : j < 2 := hw
      have : j = 0 ∨ j = 1 := by omega
      rcases this with rfl | rfl <;> decide
    | resp j l =>
      obtain ⟨h1, h2, h3⟩ := hw
      have h1 : j < 2 := h1
      have h2 : l < 2 := h2
      have : l = 0 := by omega
      subst this
      have : j = 0 ∨ j = 1 := by omega
      rcases this with rfl | rfl <;> decide

/-- A complete history of the node that leaves. -/
def lsched : List HMsg := [.deals, .resp 1 0, .resp 0 1, .timeout, .resp 1 1, .resp 0 0]

theorem lsched_ok : ReNet.Sched rnet.WantedOld lsched ∧ ReNet.Done rnet.WantedOld lsched := by
  refine ⟨⟨?_, ?_⟩, ?_⟩
  · intro m hm
    simp only [lsched, List.mem_cons, List.not_mem_nil, or_false] at hm
    rcases hm with rfl | rfl | rfl | rfl | rfl | rfl <;> simp [ReNet.WantedOld, rnet]
  · intro m hm hm'
    by_cases hin : m ∈ lsched
    · simp only [lsched, List.mem_cons, List.not_mem_nil, or_false] at hin
      rcases hin with rfl | rfl | rfl | rfl | rfl | rfl <;> revert hm hm' <;> decide
    · rw [List.count_eq_zero_of_not_mem hin]; omega
  · intro m hw hm hm'
    cases m with
    | deals => exact absurd rfl hm'
    | timeout => exact absurd rfl hm
    | deal j => exact absurd hw id
    | resp j l =>
      obtain ⟨h1, h2⟩ := hw
      have h1 : j < 2 := h1
      have h2 : l < 2 := h2
      have : l = 0 ∨ l = 1 := by omega
      have : j = 0 ∨ j = 1 := by omega
      rcases ‹j = 0 ∨ j = 1› with rfl | rfl <;> rcases ‹l = 0 ∨ l = 1› with rfl | rfl <;> decide

theorem envDI_ok : envDI.prims.Lawful ∧ (∀ d, envDI.codec.dec (envDI.codec.enc d) = some d) ∧ PrimsOk envDI :=
  ⟨prims_lawful, codecP_lawful, fun _ _ => rfl, fun _ _ _ _ => rfl⟩

/-- `C100_honest_run` for the node that stays: the new polynomial is `2 [5, 6] - [9, 7] = [1, 5]`. -/
example : rnet.newPoly 2 = [1, 5] ∧ ∃ k,
    (dRun envDI (rnet.D 1) (rsched.map (rnet.callNew envDI 1 1))).distKeyShare envDI.suite MapOrder.rev = .ok k ∧
    k.commits = (rnet.newPoly 2).map (fun a => a • envDI.suite.base) ∧
    k.share = ⟨1, polyVal (rnet.newPoly 2) ((1 + 1 : Nat) : ZMod 11)⟩ ∧
    k.publicKey = .ok ((1 : ZMod 11) • envDI.suite.base) := by
  obtain ⟨-, h⟩ := C100_honest_run 11 envDI envDI_lawful envDI_ok.1 envDI_ok.2.2 rnet
    rnet_honest (fun _ _ _ _ => envDI_ok.2.1 _) 1 (by decide) (by decide) (by decide) 2 rfl 1 (by decide) rsched rsched_ok.1
  exact ⟨by decide +kernel, (h rsched_ok.2 MapOrder.rev).2.2.2⟩

/-- `C100_leaving` for the node with key 5. -/
example : (dRun envDI (rnet.O 1) (lsched.map (rnet.callOld envDI 1 1))).certified MapOrder.rev = true :=
  (C100_leaving envDI envDI_lawful envDI_ok.1 envDI_ok.2.2 rnet rnet_honest 1 1 (by decide)
    (by decide +kernel) lsched lsched_ok.1).2.2 lsched_ok.2 MapOrder.rev

/-- `C100_recover` from both new shares. -/
example : Poly.recoverSecret MapOrder.id ([1, 0].map (fun i => some
    (⟨i, polyVal (rnet.newPoly 2) ((i + 1 : Nat) : ZMod 11)⟩ : Share (ZMod 11)))) 2 = .ok 1 :=
  C100_recover 11 MapOrder.id rnet 2 (by decide) (by decide) (by decide) [1, 0]
    (by decide) (by decide)

end DkgPExample

end Kyber.Props
