/-
Property C142: a resharing with the Pedersen DKG (`src/share/dkg/pedersen/dkg.rs`) with old and new nodes
that are silent.
-/
import Verif.Props.DkgReshareHonest
import Verif.Props.DkgPedersenSilent

set_option linter.unusedSectionVars false

namespace Kyber.Props

open Kyber Kyber.Poly Kyber.Spec Kyber.VssP Kyber.DkgP

variable {F G : Type} [Field F] [AddCommGroup G] [DecidableEq G]

section

variable [SMul F G]

/-! ### The timeout, in any mode -/

/-- `Flag` for the verifiers of all dealers. -/
def FlagAll (b : Bool) (t0 : Nat) (d : Dkg F G) : Prop :=
  ∀ j v, d.verifiers.get j = some v → Flag b t0 v.aggregator

theorem FlagAll.set {b : Bool} {t0 : Nat} {d : Dkg F G} (h : FlagAll b t0 d) (i : Nat) {w : Verifier F G}
    (hw : Flag b t0 w.aggregator) : FlagAll b t0 (d.setVerifier i w) := by
  intro j v hv
  change (d.verifiers.insert i w).get j = some v at hv
  rw [AMap.get_insert] at hv
  split at hv
  · cases hv; exact hw
  · exact h j v hv

theorem FlagAll.deal {b : Bool} {t0 : Nat} {d : Dkg F G} (h : FlagAll b t0 d) (E : DkgEnv F G) (dd : DkgP.Deal G)
    (k k' : F) : FlagAll b t0 (d.processDeal E dd k k').1 := by
  unfold Dkg.processDeal
  split
  · exact h
  split
  · exact h
  split
  · exact h
  · exact h
  split
  · exact h
  rename_i ver hver
  have hw := (h _ _ hver).deal (E := E.toEnv) dd.deal k
  split
  · rename_i h1; rw [h1] at hw; exact h.set _ hw
  · rename_i h1; rw [h1] at hw; exact h.set _ hw
  rename_i v resp h1
  rw [h1] at hw
  have hfin : ∀ pubb : G, FlagAll b t0 (d.setVerifier dd.index
      (if (DkgP.findPub d.c.newNodes pubb).2 && !d.isResharing then
        v.unsafeSetResponseDkg (DkgP.findPub d.c.newNodes pubb).1 statusApproval else v)) := by
    intro pubb
    refine h.set _ ?_
    split
    · exact hw.add _
    · exact hw
  have hrej : ∀ pubb : G, FlagAll b t0 (d.reject E dd.index pubb v resp k').1 := by
    intro pubb
    unfold Dkg.reject
    refine h.set _ ?_
    refine Flag.add ?_ _
    split
    · exact hw.add _
    · exact hw
  simp only
  split
  · split
    · split
      · exact hrej _
      · exact hfin _
    · exact h.set _ hw
  · exact hfin _

theorem FlagAll.response {b : Bool} {t0 : Nat} {d : Dkg F G} (h : FlagAll b t0 d) (E : DkgEnv F G)
    (r : DkgP.Response) (k : F) : FlagAll b t0 (d.processResponse E r k).1 := by
  unfold Dkg.processResponse
  split
  · unfold Dkg.processResharingResponse
    simp only
    split
    · exact h
    · exact h
    split
    · exact h
    split
    · exact h
    split <;> exact h
  split
  · exact h
  rename_i v hv
  have hw : Flag b t0 (v.processResponse E.suite r.response).1.aggregator := (h _ _ hv).response E.suite _
  split
  · rename_i h1; rw [h1] at hw; exact h.set _ hw
  · rename_i h1; rw [h1] at hw; exact h.set _ hw
  rename_i w h1
  rw [h1] at hw
  have hs := h.set r.index hw
  simp only
  split
  · exact hs
  split
  · exact hs
  · exact hs
  · exact hs
  rename_i dl ju h2
  have hj : Flag b t0 (w.processJustification E.suite ju).1.aggregator := hw.justification E.suite _
  split <;> rename_i h3 <;> rw [h3] at hj <;> exact FlagAll.set hs _ hj

/-- Every call except a timeout leaves the flag as it is, a timeout sets it. -/
theorem FlagAll.step {b : Bool} {t0 : Nat} {d : Dkg F G} (h : FlagAll b t0 d) (E : DkgEnv F G) (c : DCall F G) :
    FlagAll (b || isTimeout c) t0 (dStep E d c) := by
  cases c with
  | deals dh k rnd vk vk' =>
    rw [isTimeout, Bool.or_false]
    exact deals_ind (E := E) (fun d' => FlagAll b t0 d') (d0 := d) dh k rnd vk vk' (fun d' h' => h')
      (fun d' e _ h' _ => h'.deal E _ _ _) d (Evolves.refl E d) h
  | deal dd k k' => rw [isTimeout, Bool.or_false]; exact h.deal E dd k k'
  | response r k => rw [isTimeout, Bool.or_false]; exact h.response E r k
  | justification ju =>
    rw [isTimeout, Bool.or_false]
    show FlagAll b t0 (d.processJustification E ju).1
    unfold Dkg.processJustification
    split
    · exact h
    · rename_i v hv
      exact h.set _ ((h _ _ hv).justification E.suite _)
  | timeout =>
    rw [isTimeout, Bool.or_true]
    intro j v hv
    change AMap.get (d.verifiers.map _) j = _ at hv
    rw [get_map] at hv
    obtain ⟨w, hw, rfl⟩ := Option.map_eq_some_iff.1 hv
    exact ⟨rfl, (h j w hw).2⟩

theorem FlagAll.run {b : Bool} {t0 : Nat} {d : Dkg F G} (h : FlagAll b t0 d) (E : DkgEnv F G) (cs : List (DCall F G)) :
    FlagAll (b || cs.any (fun c => isTimeout c)) t0 (dRun E d cs) := by
  induction cs generalizing d b with
  | nil => rw [List.any_nil, Bool.or_false]; exact h
  | cons c cs ih =>
    have := ih (h.step E c)
    rw [List.any_cons, ← Bool.or_assoc]
    exact this

/-! ### Who is qualified when messages are missing -/

/-- New node `i` knows an approval by new node `l` of the deal of old node `j`: it received the deal and is
`l`, or it received the response. -/
def HeardNew (i : Nat) (s : List HMsg) (j l : Nat) : Prop := HMsg.deal j ∈ s ∧ l = i ∨ HMsg.resp j l ∈ s

instance (i : Nat) (s : List HMsg) (j l : Nat) : Decidable (HeardNew i s j l) := by
  unfold HeardNew; infer_instance

theorem heardNew_iff (E : DkgEnv F G) (N : ReNet F G) (i : Nat) (s : List HMsg) (j l : Nat) :
    HeardNew i s j l ↔ (rstored E N i s j l).isSome := by
  unfold HeardNew rstored
  by_cases h1 : HMsg.deal j ∈ s ∧ l = i <;> by_cases h2 : HMsg.resp j l ∈ s <;> simp [h1, h2]

theorem rstored_status (E : DkgEnv F G) (N : ReNet F G) (i : Nat) (s : List HMsg) (j l : Nat) (r : VssP.Response)
    (h : rstored E N i s j l = some r) : r.status = true := by
  unfold rstored at h
  split at h
  · cases h; rfl
  split at h
  · cases h; rfl
  · cases h

/-- C142: which old nodes are qualified at a new node after any part of a run in which nobody complains,
whatever has arrived. After a timeout: those of which as many approvals are known as the threshold, which
is the one in the deal, or, without the deal, the one given at the start. Before: those all new nodes
approved. -/
theorem C142_qualified (E : DkgEnv F G) (hS : E.suite.Lawful) (hP : E.prims.Lawful)
    (hO : PrimsOk E) (N : ReNet F G) (h : N.Honest E)
    (hC : ∀ j < N.n, ∀ dl ∈ (N.O j).dealer.deals, E.codec.dec (E.codec.enc dl) = some dl) (z : F)
    (T : Nat) (hT : T = if N.t ≠ 0 then N.t else minimumT N.m)
    (i : Nat) (hi : i < N.m) (s : List HMsg) (hs : ReNet.Sched (N.WantedNew i) s) (j : Nat) :
    Qualified (dRun E (N.D i) (s.map (N.callNew E z i))) j ↔ j < N.n ∧
      if HMsg.timeout ∈ s then
        (if HMsg.deal j ∈ s then T else N.t) ≤ ((Finset.range N.m).filter (HeardNew i s j)).card
      else ∀ l < N.m, HeardNew i s j l := by
  obtain ⟨hI, -⟩ := rinv_run hS hP hO h hC hi z s hs
  obtain ⟨hstat, hvs, hthr, -, -⟩ := new_start h hi
  have hflag : FlagAll (decide (HMsg.timeout ∈ s)) N.t (dRun E (N.D i) (s.map (N.callNew E z i))) := by
    have h0 : FlagAll false N.t (N.D i) := by
      intro j v hv
      rw [hvs, startVers_get] at hv
      obtain ⟨p, -, rfl⟩ := Option.map_eq_some_iff.1 hv
      exact ⟨rfl, fun _ => hthr⟩
    have := h0.run E (s.map (N.callNew E z i))
    have he : (s.map (N.callNew E z i)).any (fun c => isTimeout c) = decide (HMsg.timeout ∈ s) := by
      rw [Bool.eq_iff_iff, List.any_eq_true, decide_eq_true_eq]
      constructor
      · rintro ⟨c, hc, hm⟩
        obtain ⟨m, hm', rfl⟩ := List.mem_map.1 hc
        cases m <;> simp [ReNet.callNew, isTimeout] at hm
        exact hm'
      · intro hm
        exact ⟨_, List.mem_map.2 ⟨_, hm, rfl⟩, rfl⟩
    rwa [Bool.false_or, he] at this
  set d := dRun E (N.D i) (s.map (N.callNew E z i)) with hd
  by_cases hj : j < N.n
  swap
  · constructor
    · rintro ⟨v, hv, -⟩
      have hk : j ∈ d.verifiers.keys := AMap.get_isSome.1 (by rw [hv]; rfl)
      rw [hd, (dRun_evolves E (N.D i) _).keys, hvs, startVers_keys, hstat.oldNodes, oldPubs_length] at hk
      exact absurd (List.mem_range.1 hk) hj
    · rintro ⟨hj', -⟩
      exact absurd hj' hj
  have hTm : T ≤ N.m := by
    have hv := (newDealer_ok (old_start h hj).1).1
    rw [(old_start h hj).2.2.2.2.2.2.2.2, ← hT] at hv
    unfold validT at hv
    simp only [Bool.and_eq_true, decide_eq_true_eq, newPubs_length] at hv
    exact hv.1.2
  obtain ⟨v, hv, h1, h2⟩ := hI.ver j hj
  have hfl := hflag j v hv
  have hstat' : ∀ l r, v.aggregator.responses.get l = some r → r.status = true := by
    intro l r hr
    rw [h2.resp] at hr
    exact rstored_status E N i s j l r hr
  have hlen : v.aggregator.verifiers.length = N.m := by rw [h1.aggv, newPubs_length]
  have happ : approvedBy v.aggregator.responses N.m = (Finset.range N.m).filter (HeardNew i s j) := by
    unfold approvedBy
    refine Finset.filter_congr (fun l _ => ?_)
    rw [heardNew_iff E N, ← h2.resp]
    cases hr : v.aggregator.responses.get l with
    | none => simp
    | some r => simp [hstat' l r hr]
  have hcom : complainedBy v.aggregator.responses N.m = ∅ := by
    unfold complainedBy
    rw [Finset.filter_eq_empty_iff]
    rintro l - ⟨r, hr, hf⟩
    rw [hstat' l r hr] at hf; cases hf
  have hmis : missing v.aggregator.responses N.m = (Finset.range N.m).filter (fun l => ¬ HeardNew i s j l) := by
    unfold missing
    refine Finset.filter_congr (fun l _ => ?_)
    rw [heardNew_iff E N, ← h2.resp]
    cases v.aggregator.responses.get l <;> simp
  have hsum : ((Finset.range N.m).filter (HeardNew i s j)).card +
      ((Finset.range N.m).filter (fun l => ¬ HeardNew i s j l)).card = N.m := by
    rw [Finset.card_filter_add_card_filter_not, Finset.card_range]
  have ht : v.aggregator.t = if HMsg.deal j ∈ s then T else N.t := by
    split
    · rename_i hg
      rw [if_pos hg] at h2
      rw [h2.t _ rfl]
      show (N.O j).newT = T
      rw [(old_start h hj).2.2.2.2.2.2.2.2, hT]
    · rename_i hg
      rw [if_neg hg] at h2
      exact hfl.2 h2.deal
  have hq : Qualified d j ↔ v.aggregator.dealCertified = true := by
    constructor
    · rintro ⟨w, hw, hc⟩
      rw [hv] at hw
      cases hw
      exact hc
    · exact fun hc => ⟨v, hv, hc⟩
  rw [hq, C23_certified_iff, hlen, happ, hcom, hmis, hfl.1, h1.bad, ← ht]
  simp only [true_and, hj]
  by_cases hto : HMsg.timeout ∈ s
  · simp only [hto, decide_true, if_true]
    constructor
    · exact fun hx => hx.1
    · exact fun hx => ⟨hx, by omega⟩
  · simp only [hto, decide_false, Bool.false_eq_true, if_false]
    constructor
    · intro hx l hl
      by_contra hc
      have := hx.2 ▸ Finset.mem_filter.2 ⟨Finset.mem_range.2 hl, hc⟩
      simp at this
    · intro hx
      refine ⟨?_, Finset.filter_eq_empty_iff.2 (fun l hl hc => hc (hx l (Finset.mem_range.1 hl)))⟩
      have hall : (Finset.range N.m).filter (HeardNew i s j) = Finset.range N.m :=
        Finset.filter_true_of_mem (fun l hl => hx l (Finset.mem_range.1 hl))
      rw [hall, Finset.card_range, ht]
      have hg : HMsg.deal j ∈ s := by
        rcases hx i hi with ⟨h', -⟩ | h'
        · exact h'
        · exact absurd rfl (hs.wanted _ h').2.2
      rw [if_pos hg]
      exact hTm

/-! ### Silent old and new nodes -/

/-- The history of new node `i` when of the old nodes only those in `A` deal, of the new nodes only those in `B`
take part, and everything these send has arrived. -/
structure OnlyFromNew (A B : Finset Nat) (i : Nat) (s : List HMsg) : Prop where
  deal : ∀ j, HMsg.deal j ∈ s ↔ j ∈ A
  resp : ∀ j l, HMsg.resp j l ∈ s ↔ j ∈ A ∧ l ∈ B ∧ l ≠ i

theorem heardNew_onlyFrom {A B : Finset Nat} {i : Nat} {s : List HMsg} (hi : i ∈ B) (ho : OnlyFromNew A B i s)
    (j l : Nat) : HeardNew i s j l ↔ j ∈ A ∧ l ∈ B := by
  unfold HeardNew
  rw [ho.deal, ho.resp]
  constructor
  · rintro (⟨h1, rfl⟩ | ⟨h1, h2, -⟩)
    · exact ⟨h1, hi⟩
    · exact ⟨h1, h2⟩
  · rintro ⟨h1, h2⟩
    by_cases hl : l = i
    · exact .inl ⟨h1, hl⟩
    · exact .inr ⟨h1, h2, hl⟩

/-- Enough new nodes take part: as many as the new threshold once the timeout was announced, all before. -/
def EnoughNew (N : ReNet F G) (T : Nat) (B : Finset Nat) (s : List HMsg) : Prop :=
  if HMsg.timeout ∈ s then T ≤ B.card else B = Finset.range N.m

/-- C142: with silent nodes the qualified old nodes are exactly those that dealt, if enough new nodes take part,
and none otherwise. -/
theorem C142_qualified_silent (E : DkgEnv F G) (hS : E.suite.Lawful) (hP : E.prims.Lawful)
    (hO : PrimsOk E) (N : ReNet F G) (h : N.Honest E)
    (hC : ∀ j < N.n, ∀ dl ∈ (N.O j).dealer.deals, E.codec.dec (E.codec.enc dl) = some dl) (z : F)
    (T : Nat) (hT : T = if N.t ≠ 0 then N.t else minimumT N.m)
    (A B : Finset Nat) (hA : ∀ j ∈ A, j < N.n) (hB : ∀ l ∈ B, l < N.m)
    (i : Nat) (hi : i ∈ B) (s : List HMsg) (hs : ReNet.Sched (N.WantedNew i) s) (ho : OnlyFromNew A B i s)
    (ht : N.t ≠ 0 ∨ HMsg.timeout ∉ s) (j : Nat) :
    Qualified (dRun E (N.D i) (s.map (N.callNew E z i))) j ↔ j ∈ A ∧ EnoughNew N T B s := by
  rw [C142_qualified E hS hP hO N h hC z T hT i (hB i hi) s hs j]
  have hcard : ((Finset.range N.m).filter (HeardNew i s j)).card = if j ∈ A then B.card else 0 := by
    split
    · rename_i hj
      congr 1
      ext l
      rw [Finset.mem_filter, heardNew_onlyFrom hi ho, Finset.mem_range]
      exact ⟨fun h => h.2.2, fun h => ⟨hB l h, hj, h⟩⟩
    · rename_i hj
      rw [Finset.card_eq_zero, Finset.filter_eq_empty_iff]
      intro l _
      rw [heardNew_onlyFrom hi ho]
      exact fun h => hj h.1
  unfold EnoughNew
  rw [hcard]
  simp only [ho.deal]
  by_cases hto : HMsg.timeout ∈ s
  · have ht := ht.resolve_right (fun h => h hto)
    rw [if_pos ht] at hT
    simp only [hto, if_true]
    by_cases hj : j ∈ A
    · simp only [hj, if_true, true_and, hA j hj]
    · simp only [hj, if_false, false_and, iff_false, not_and]
      intro _
      omega
  · simp only [hto, if_false, heardNew_onlyFrom hi ho]
    constructor
    · rintro ⟨-, hx⟩
      refine ⟨(hx i (hB i hi)).1, ?_⟩
      ext l
      rw [Finset.mem_range]
      exact ⟨hB l, fun hl => (hx l hl).2⟩
    · rintro ⟨hj, rfl⟩
      exact ⟨hA j hj, fun l hl => ⟨hj, Finset.mem_range.2 hl⟩⟩

end

section

variable [SMul F G]

/-- The new polynomial when only the old nodes in `A` deal: the combination of the polynomials of the first
`f.length` of them that interpolates at zero. -/
def newPolyOn (N : ReNet F G) (A : Finset Nat) (T : Nat) : List F :=
  combine (F := F) (firstT A N.f.length) (N.poly T) T

/-- C142: a new node that takes part gets a key exactly if enough new nodes take part and the old nodes that
dealt reach the old threshold and the number of old coefficients. The key is then the same for all of them up to
the share, the qualified old nodes are those that dealt, and the public key is the old one. -/
theorem C142_silent (q : Nat) [CharP F q] (E : DkgEnv F G) (hS : E.suite.Lawful)
    (hP : E.prims.Lawful) (hO : PrimsOk E) (N : ReNet F G) (h : N.Honest E)
    (hC : ∀ j < N.n, ∀ dl ∈ (N.O j).dealer.deals, E.codec.dec (E.codec.enc dl) = some dl) (z : F) (hq : N.n ≤ q)
    (T : Nat) (hT : T = if N.t ≠ 0 then N.t else minimumT N.m)
    (A B : Finset Nat) (hA : ∀ j ∈ A, j < N.n) (hB : ∀ l ∈ B, l < N.m)
    (i : Nat) (hi : i ∈ B) (s : List HMsg) (hs : ReNet.Sched (N.WantedNew i) s) (ho : OnlyFromNew A B i s)
    (ht : N.t ≠ 0 ∨ HMsg.timeout ∉ s) (ord : MapOrder) :
    (EnoughNew N T B s ∧ N.oldT ≤ A.card ∧ N.f.length ≤ A.card →
      (dRun E (N.D i) (s.map (N.callNew E z i))).thresholdCertified ord = true ∧
      (∀ j, j ∈ (dRun E (N.D i) (s.map (N.callNew E z i))).qual ord ↔ j ∈ A) ∧
      ∃ k, (dRun E (N.D i) (s.map (N.callNew E z i))).distKeyShare E.suite ord = .ok k ∧
        k.commits = (newPolyOn N A T).map (fun a => a • E.suite.base) ∧
        k.share = ⟨i, polyVal (newPolyOn N A T) ((i + 1 : Nat) : F)⟩ ∧
        k.publicKey = .ok (N.f.getD 0 0 • E.suite.base)) ∧
    (¬ (EnoughNew N T B s ∧ N.oldT ≤ A.card ∧ N.f.length ≤ A.card) →
      ∀ key, (dRun E (N.D i) (s.map (N.callNew E z i))).distKeyShare E.suite ord ≠ .ok key) := by
  have hin := hB i hi
  obtain ⟨hI, -⟩ := rinv_run hS hP hO h hC hin z s hs
  obtain ⟨hstat, -, -, hco, hnt⟩ := new_start h hin
  obtain ⟨sec, dr, h0⟩ := h.startN i hin
  have ha := h.agreeN i hin
  have hqs := C142_qualified_silent E hS hP hO N h hC z T hT A B hA hB i hi s hs ho ht
  have hdeal : ∀ j ∈ A, ∃ v, (dRun E (N.D i) (s.map (N.callNew E z i))).verifiers.get j = some v ∧
      v.aggregator.deal = some (N.plain j i) := by
    intro j hj
    obtain ⟨v, hv, -, h2⟩ := hI.ver j (hA j hj)
    rw [if_pos ((ho.deal j).2 hj)] at h2
    exact ⟨v, hv, h2.deal⟩
  have hTi : (N.D i).newT = T := by rw [hnt, hT]
  constructor
  · rintro ⟨hen, hold, hf⟩
    have hQ : ∀ j, j ∈ A ↔ Qualified (dRun E (N.D i) (s.map (N.callNew E z i))) j :=
      fun j => by rw [hqs]; exact ⟨fun h => ⟨h, hen⟩, fun h => h.1⟩
    have hthr := C36_threshold_certified E _ _ _ (N.D i) h0 hstat.new (s.map (N.callNew E z i)) ord
    rw [if_pos (h.knows i hin), ha.oldThreshold] at hthr
    obtain ⟨r1, r2, k, r3, r4, r5⟩ := C34_honest q E hS.base_lin _ _ _ (N.D i) h0 hstat.re hstat.new
      (by rw [ha.oldNodes, oldPubs_length]; exact hq) N.f h.f hco (s.map (N.callNew E z i)) ord
      A (firstT A N.f.length) hQ
      (by rw [ha.oldThreshold]; exact hold) hf rfl
      N.oc (fun j => if hj : j < N.n then (h.startO j hj).choose else 0) N.draws N.O
      (by
        intro j hj
        have hj := hA j hj
        refine ⟨?_, by rw [(h.agreeO j hj).newNodes, ha.newNodes],
          by rw [(h.agreeO j hj).threshold, ha.threshold], h.holds j hj⟩
        rw [dif_pos hj]
        exact (h.startO j hj).choose_spec)
      (by
        intro j hj
        obtain ⟨v, hv, hd⟩ := hdeal j hj
        refine ⟨v, _, hv, hd, ?_⟩
        rw [hstat.nidx]
        exact rplain_deal h (hA j hj) hin)
    have hpoly : combine (F := F) (firstT A N.f.length) (fun j => (N.O j).dealer.secretPoly.coeffs) T =
        newPolyOn N A T := by
      unfold newPolyOn
      refine combine_congr _ _ (fun j hj => ?_)
      have hj : j < N.n := hA j (firstT_subset _ _ hj)
      obtain ⟨o1, -, -, -, -, -, -, -, o9⟩ := old_start h hj
      rw [← hT] at o9
      rw [o9] at o1
      obtain ⟨-, -, -, -, -, -, -, h6, -⟩ := newDealer_ok o1
      rw [h6]
      rfl
    simp only [hTi, hpoly, hstat.nidx] at r1 r2 r4 r5
    have hpos : 0 < T := hTi ▸ newT_pos h0 hstat.new
    refine ⟨(hthr A hQ).2 hold, fun j => ?_, k, r3, r4, r5, ?_⟩
    · have := (C36_qual E _ _ _ (N.D i) h0 hstat.new (s.map (N.callNew E z i)) ord ord).1 j
      rw [this, hQ]
      unfold Qualified
      simp only [C23_certified_iff]
    · unfold DistKeyShare.publicKey
      rw [r4]
      cases hp : newPolyOn N A T with
      | nil => rw [hp] at r1; simp at r1; omega
      | cons a l =>
        rw [hp] at r2
        rw [← r2]
        rfl
  · intro hno key hk
    by_cases hen : EnoughNew N T B s
    · have hQ : ∀ j, j ∈ A ↔ Qualified (dRun E (N.D i) (s.map (N.callNew E z i))) j :=
        fun j => by rw [hqs]; exact ⟨fun h => ⟨h, hen⟩, fun h => h.1⟩
      rw [C34_dist_key_share_iff E _ _ _ (N.D i) h0 hstat.re hstat.new _ hco (by simpa [ReNet.commits] using h.f) _ ord key A _ hQ
        (fun j => N.plain j i) hdeal rfl, ha.oldThreshold] at hk
      exact hno ⟨hen, hk.1, by simpa [ReNet.commits] using hk.2.1⟩
    · have hQ : ∀ j, j ∈ (∅ : Finset Nat) ↔ Qualified (dRun E (N.D i) (s.map (N.callNew E z i))) j :=
        fun j => by rw [hqs]; simp [hen]
      rw [C34_dist_key_share_iff E _ _ _ (N.D i) h0 hstat.re hstat.new _ hco (by simpa [ReNet.commits] using h.f) _ ord key ∅ _ hQ
        (fun j => N.plain j i) (by simp) rfl] at hk
      have := hk.2.1
      simp at this
      exact h.f (by simpa [ReNet.commits] using this)

theorem newPolyOn_length (N : ReNet F G) (A : Finset Nat) (T : Nat) : (newPolyOn N A T).length = T := by
  simp [newPolyOn, combine]

theorem newPolyOn_head (q : Nat) [CharP F q] (N : ReNet F G) (A : Finset Nat) (T : Nat) (hT : 0 < T)
    (hf0 : N.f ≠ []) (hA : ∀ j ∈ A, j < N.n) (hn : N.n ≤ q) (hf : N.f.length ≤ A.card) :
    (newPolyOn N A T).getD 0 0 = N.f.getD 0 0 := by
  have hinj : Set.InjOn (xc F) (firstT A N.f.length) :=
    xc_injOn q _ (fun i hi => lt_of_lt_of_le (hA i (firstT_subset _ _ hi)) hn)
  unfold newPolyOn
  rw [combine_getD _ _ _ 0 hT, ← weights_polyVal _ hinj N.f
    (by rw [card_firstT _ _ (List.length_pos_iff.2 hf0) hf])]
  exact Finset.sum_congr rfl (fun i _ => rfl)

/-- C142: any `T` of the new shares recover the secret of the old group, whichever old nodes dealt. -/
theorem C142_recover (q : Nat) [CharP F q] (ord : MapOrder) (N : ReNet F G) (A : Finset Nat) (T : Nat) (hT : 0 < T)
    (hf0 : N.f ≠ []) (hA : ∀ j ∈ A, j < N.n) (hn : N.n ≤ q) (hf : N.f.length ≤ A.card) (hm : N.m ≤ q)
    (sel : List Nat) (hsel : ∀ i ∈ sel, i < N.m) (hcount : T ≤ sel.toFinset.card) :
    Poly.recoverSecret ord (sel.map (fun i => some ⟨i, polyVal (newPolyOn N A T) ((i + 1 : Nat) : F)⟩)) T =
      .ok (N.f.getD 0 0) := by
  have hlen := newPolyOn_length N A T
  have hhead := newPolyOn_head q N A T hT hf0 hA hn hf
  have := C34_recover (G := G) q ord N.f (newPolyOn N A T) (by rintro he; rw [he] at hlen; simp at hlen; omega) hhead
    (sel.map (fun i => ⟨[], ⟨i, polyVal (newPolyOn N A T) ((i + 1 : Nat) : F)⟩, []⟩))
    (by intro k hk; obtain ⟨i, -, rfl⟩ := List.mem_map.1 hk; rfl)
    (by intro k hk; obtain ⟨i, hi, rfl⟩ := List.mem_map.1 hk; exact lt_of_lt_of_le (hsel i hi) hm)
    (by rw [hlen, List.map_map]; simpa [Function.comp_def] using hcount)
  rw [hlen, List.map_map] at this
  exact this

end

/-! ## Examples -/

namespace DkgPExample

open Kyber.Toy

/-- Three old nodes with the keys 3, 5 and 4, the old polynomial `[1, 4]`; three new nodes with the keys 2, 3
and 7. The node with key 3 stays. -/
def qoc (j : Nat) : Config (ZMod 11) (ZMod 11) :=
  ⟨[3, 5, 4].getD j 1, [6, 10, 8], none, [4, 6, 3], some ⟨[2, 8], ⟨j, [5, 9, 2].getD j 0⟩, []⟩, 2, 2⟩
@[inherit_doc qoc] def qO (j : Nat) : Dkg (ZMod 11) (ZMod 11) :=
  getDkg (newDistKeyHandler envDI.suite (qoc j) 0 ([[6], [7], [9]].getD j []))
@[inherit_doc qoc] def qnc (i : Nat) : Config (ZMod 11) (ZMod 11) :=
  if i = 1 then qoc 0 else ⟨[2, 3, 7].getD i 1, [6, 10, 8], some [2, 8], [4, 6, 3], none, 2, 2⟩
@[inherit_doc qoc] def qnet : ReNet (ZMod 11) (ZMod 11) where
  n := 3
  m := 3
  t := 2
  oldT := 2
  f := [1, 4]
  xo j := [3, 5, 4].getD j 1
  xn i := [2, 3, 7].getD i 1
  draws j := [[6], [7], [9]].getD j []
  dh j i := ((j + i + 1 : Nat) : ZMod 11)
  k _ _ := 4
  rnd _ _ := 8
  vk _ _ := 5
  oc := qoc
  nc := qnc
  O := qO
  D i := if i = 1 then qO 0 else getDkg (newDistKeyHandler envDI.suite (qnc i) 0 [])

theorem qnet_honest : qnet.Honest envDI where
  nodupO := by decide +kernel
  nodupN := by decide +kernel
  xo := by unfold Usable; decide +kernel
  xn := by unfold Usable; decide +kernel
  k j i := by unfold Usable qnet; simp only; decide +kernel
  rnd j i := by unfold Usable qnet; simp only; decide +kernel
  vk j i := by unfold Usable qnet; simp only; decide +kernel
  f := by decide
  agreeO j hj := by
    have hj : j < 3 := hj
    have : j = 0 ∨ j = 1 ∨ j = 2 := by omega
    rcases this with rfl | rfl | rfl <;>
      exact ⟨rfl, by decide +kernel, by decide +kernel, rfl, rfl, (fun cs h => by cases h),
        (fun sh h => by cases h; decide +kernel)⟩
  agreeN i hi := by
    have hi : i < 3 := hi
    have : i = 0 ∨ i = 1 ∨ i = 2 := by omega
    rcases this with rfl | rfl | rfl
    · exact ⟨rfl, by decide +kernel, by decide +kernel, rfl, rfl,
        (fun cs h => by cases h; decide +kernel), (fun sh h => by cases h)⟩
    · exact ⟨rfl, by decide +kernel, by decide +kernel, rfl, rfl, (fun cs h => by cases h),
        (fun sh h => by cases h; decide +kernel)⟩
    · exact ⟨rfl, by decide +kernel, by decide +kernel, rfl, rfl,
        (fun cs h => by cases h; decide +kernel), (fun sh h => by cases h)⟩
  holds j hj := by
    have hj : j < 3 := hj
    have : j = 0 ∨ j = 1 ∨ j = 2 := by omega
    rcases this with rfl | rfl | rfl <;> exact ⟨_, rfl, by decide +kernel⟩
  startO j hj := by
    have hj : j < 3 := hj
    have : j = 0 ∨ j = 1 ∨ j = 2 := by omega
    rcases this with rfl | rfl | rfl <;> exact ⟨0, rfl⟩
  startN i hi := by
    have hi : i < 3 := hi
    have : i = 0 ∨ i = 1 ∨ i = 2 := by omega
    rcases this with rfl | rfl | rfl
    · exact ⟨0, [], rfl⟩
    · exact ⟨0, [6], rfl⟩
    · exact ⟨0, [], rfl⟩
  knows := by decide +kernel
  both i hi hs := by
    have hi : i < 3 := hi
    have : i = 0 ∨ i = 1 ∨ i = 2 := by omega
    rcases this with rfl | rfl | rfl
    · cases hs
    · exact ⟨0, by decide, rfl, rfl⟩
    · cases hs

/-- The history of new node 0 when old node 1 and new node 2 are silent. -/
def qsched : List HMsg := [.resp 2 1, .deal 2, .deal 0, .resp 0 1, .timeout]

theorem qsched_ok : ReNet.Sched (qnet.WantedNew 0) qsched := by
  refine ⟨?_, ?_⟩
  · intro m hm
    simp only [qsched, List.mem_cons, List.not_mem_nil, or_false] at hm
    rcases hm with rfl | rfl | rfl | rfl | rfl <;> simp [ReNet.WantedNew, qnet]
  · intro m hm hm'
    by_cases hin : m ∈ qsched
    · simp only [qsched, List.mem_cons, List.not_mem_nil, or_false] at hin
      rcases hin with rfl | rfl | rfl | rfl | rfl <;> revert hm hm' <;> decide
    · rw [List.count_eq_zero_of_not_mem hin]; omega

theorem qsched_only : OnlyFromNew {0, 2} {0, 1} 0 qsched := by
  constructor
  · intro j; simp [qsched, or_comm]
  · intro j l
    simp only [qsched, List.mem_cons, List.not_mem_nil, HMsg.resp.injEq, reduceCtorEq, false_or, or_false,
      Finset.mem_insert, Finset.mem_singleton]
    omega

/-- `C142_silent`: new node 0 gets a key of the polynomial `7 [5, 6] + 5 [2, 9] = [1, 10]`, with the old public
key. -/
example : newPolyOn qnet {0, 2} 2 = [1, 10] ∧ ∃ k,
    (dRun envDI (qnet.D 0) (qsched.map (qnet.callNew envDI 1 0))).distKeyShare envDI.suite MapOrder.rev = .ok k ∧
    k.commits = (newPolyOn qnet {0, 2} 2).map (fun a => a • envDI.suite.base) ∧
    k.share = ⟨0, polyVal (newPolyOn qnet {0, 2} 2) ((0 + 1 : Nat) : ZMod 11)⟩ ∧
    k.publicKey = .ok ((1 : ZMod 11) • envDI.suite.base) := by
  obtain ⟨h, -⟩ := C142_silent 11 envDI envDI_lawful envDI_ok.1 envDI_ok.2.2 qnet
    qnet_honest (fun _ _ _ _ => envDI_ok.2.1 _) 1 (by decide) 2 rfl {0, 2} {0, 1} (by decide) (by decide) 0 (by decide)
    qsched qsched_ok qsched_only (.inl (by decide)) MapOrder.rev
  exact ⟨by decide +kernel, (h ⟨by unfold EnoughNew; rw [if_pos (by decide)]; decide, by decide, by decide⟩).2.2⟩

/-- `C142_qualified`: at the end old node 2 is qualified and old node 1 is not. -/
example : Qualified (dRun envDI (qnet.D 0) (qsched.map (qnet.callNew envDI 1 0))) 2 ∧
    ¬ Qualified (dRun envDI (qnet.D 0) (qsched.map (qnet.callNew envDI 1 0))) 1 := by
  have h := C142_qualified envDI envDI_lawful envDI_ok.1 envDI_ok.2.2 qnet
    qnet_honest (fun _ _ _ _ => envDI_ok.2.1 _) 1 2 rfl 0 (by decide) qsched qsched_ok
  rw [h, h]
  decide +kernel

/-- `C142_qualified_silent`: exactly the old nodes that dealt are qualified. -/
example (j : Nat) : Qualified (dRun envDI (qnet.D 0) (qsched.map (qnet.callNew envDI 1 0))) j ↔ j = 0 ∨ j = 2 := by
  rw [C142_qualified_silent envDI envDI_lawful envDI_ok.1 envDI_ok.2.2 qnet qnet_honest (fun _ _ _ _ => envDI_ok.2.1 _)
    1 2 rfl {0, 2} {0, 1} (by decide) (by decide) 0 (by decide) qsched qsched_ok qsched_only (.inl (by decide)) j]
  have h : EnoughNew qnet 2 {0, 1} qsched := by unfold EnoughNew; rw [if_pos (by decide)]; decide
  simp [h]

/-- `C142_recover` from two of the new shares. -/
example : Poly.recoverSecret MapOrder.rev
    ([2, 0].map (fun i => some ⟨i, polyVal (newPolyOn qnet {0, 2} 2) ((i + 1 : Nat) : ZMod 11)⟩)) 2 = .ok 1 :=
  C142_recover 11 MapOrder.rev qnet {0, 2} 2 (by decide) (by decide) (by decide) (by decide) (by decide) (by decide)
    [2, 0] (by decide) (by decide)

end DkgPExample

end Kyber.Props
