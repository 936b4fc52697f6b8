/-
Property C129: the Pedersen DKG (`src/share/dkg/pedersen/dkg.rs`) with participants that are silent.
-/
import Verif.Props.DkgPedersenHonest
import Verif.Lemmas.DkgRobust

set_option linter.unusedSectionVars false

namespace Kyber.Props

open Kyber Kyber.Poly Kyber.Spec Kyber.VssP Kyber.DkgP

variable {F G : Type} [Field F] [AddCommGroup G] [DecidableEq G]

section

variable [SMul F G]

/-! ### The timeout and the threshold before the deal -/

/-- The timeout has been set (`b`), and without a deal the threshold is the one at the start. -/
def Flag (b : Bool) (t0 : Nat) (a : Aggregator F G) : Prop := a.timeout = b ∧ (a.deal = none → a.t = t0)

theorem Flag.add {b : Bool} {t0 : Nat} {a : Aggregator F G} (h : Flag b t0 a) (r : VssP.Response) :
    Flag b t0 (a.addResponse r).1 := by
  rcases addResponse_cases a r with ⟨e, h'⟩ | ⟨-, -, h'⟩ <;> rw [h'] <;> exact h

theorem Flag.response {b : Bool} {t0 : Nat} {a : Aggregator F G} (h : Flag b t0 a) (S : Suite F G)
    (r : VssP.Response) : Flag b t0 (a.verifyResponse S r).1 := by
  rcases verifyResponse_cases S a r with ⟨e, h'⟩ | h' | ⟨pub, -, h2, -, h'⟩ <;> rw [h']
  · exact h
  · exact h
  · exact h.add r

theorem Flag.remember {b : Bool} {t0 : Nat} {a : Aggregator F G} (h : Flag b t0 a) (d : VssP.Deal F G) :
    Flag b t0 (a.remember d) := by
  unfold Aggregator.remember
  split
  · exact h
  · exact ⟨h.1, by simp⟩

theorem Flag.deal {b : Bool} {t0 : Nat} {E : Env F G} {v : Verifier F G} (h : Flag b t0 v.aggregator)
    (e : EncryptedDeal G) (k : F) : Flag b t0 (v.processEncryptedDeal E e k).1.aggregator := by
  rcases processEncryptedDeal_cases E v e k with (⟨e, h3⟩ | h3) | ⟨q, -, -, hn, ⟨-, h3⟩ | ⟨st, -, h3, -⟩⟩ <;> rw [h3]
  · exact h
  · exact h
  · exact h.remember q
  · exact (h.remember q).add _

theorem Flag.justification {b : Bool} {t0 : Nat} {a : Aggregator F G} (h : Flag b t0 a) (S : Suite F G)
    (ju : VssP.Justification F G) : Flag b t0 (a.verifyJustification S ju).1 := by
  have hv : Flag b t0 (a.verifyDeal S ju.deal false).1 := by
    unfold Aggregator.verifyDeal
    split
    · exact h
    · exact h.remember _
  unfold Aggregator.verifyJustification
  split
  · exact h
  split
  · exact h
  split
  · exact h
  cases hd : a.verifyDeal S ju.deal false with
  | mk a' res =>
    rw [hd] at hv
    cases res <;> exact hv

/-- A call of `set_timeout`. -/
def isTimeout : DCall F G → Bool
  | .timeout => true
  | .deals .. => false
  | .deal .. => false
  | .response .. => false
  | .justification .. => false

/-- The verifier of every dealer, after a call that is or is not a timeout. -/
theorem step_flag {E : DkgEnv F G} {d : Dkg F G} (hre : d.isResharing = false) (hnd : d.c.newNodes.Nodup)
    {b : Bool} {t0 j : Nat} {v : Verifier F G} (hv : d.verifiers.get j = some v) (h : Flag b t0 v.aggregator)
    (c : DCall F G) :
    ∃ w, (dStep E d c).verifiers.get j = some w ∧
      Flag (b || isTimeout c) t0 w.aggregator := by
  have hpd : ∀ (d' : Dkg F G), Evolves E d d' → (∃ w, d'.verifiers.get j = some w ∧ Flag b t0 w.aggregator) →
      ∀ dd k k', ∃ w, (d'.processDeal E dd k k').1.verifiers.get j = some w ∧ Flag b t0 w.aggregator := by
    rintro d' hev ⟨u, hu, hf⟩ dd k k'
    rcases processDeal_ver (E := E) (d := d') (by rw [hev.isResharing]; exact hre)
      (by rw [hev.c]; exact hnd) hu dd k k' with ⟨h', -⟩ | ⟨-, P, -, -, w, res, h1, h2⟩
    · exact ⟨u, h', hf⟩
    · have hw := hf.deal (E := E.toEnv) dd.deal k
      rw [h1] at hw
      rcases h2 with ⟨-, -, h2⟩ | ⟨-, h2⟩
      · exact ⟨w, h2, hw⟩
      · exact ⟨_, h2, hw.add _⟩
  cases c with
  | deals dh k rnd vk vk' =>
    rw [isTimeout, Bool.or_false]
    exact deals_ind (E := E) (fun d' => Evolves E d d' ∧ ∃ w, d'.verifiers.get j = some w ∧ Flag b t0 w.aggregator)
      (d0 := d) dh k rnd vk vk'
      (fun d' h' => ⟨h'.1.trans (processed_evolves E d' true), h'.2⟩)
      (fun d' e _ h' _ => ⟨h'.1.trans (processDeal_evolves E d' _ vk vk'), hpd d' h'.1 h'.2 _ _ _⟩) d
      (Evolves.refl E d) ⟨Evolves.refl E d, v, hv, h⟩ |>.2
  | deal dd k k' =>
    rw [isTimeout, Bool.or_false]
    exact hpd d (Evolves.refl E d) ⟨v, hv, h⟩ dd k k'
  | response r k =>
    rw [isTimeout, Bool.or_false]
    rcases processResponse_ver (E := E) hre hv r k with ⟨-, h'⟩ | ⟨-, h' | ⟨ju, h'⟩⟩
    · exact ⟨_, h', h⟩
    · exact ⟨_, h', h.response E.suite _⟩
    · exact ⟨_, h', (h.response E.suite _).justification E.suite _⟩
  | justification ju =>
    rw [isTimeout, Bool.or_false]
    by_cases hj : ju.index = j
    · refine ⟨(v.processJustification E.suite ju.justification).1, ?_, h.justification E.suite _⟩
      show (d.processJustification E ju).1.verifiers.get j = _
      unfold Dkg.processJustification
      rw [hj, hv]
      exact (AMap.get_insert _ _ _ _).trans (if_pos rfl)
    · refine ⟨v, ?_, h⟩
      show (d.processJustification E ju).1.verifiers.get j = _
      unfold Dkg.processJustification
      split
      · exact hv
      · show (d.verifiers.insert ju.index _).get j = _
        rw [AMap.get_insert, if_neg (fun h => hj h.symm)]
        exact hv
  | timeout =>
    refine ⟨v.setTimeout, ?_, ?_⟩
    · show AMap.get (d.verifiers.map _) j = _
      rw [get_map, hv]; rfl
    · rw [isTimeout, Bool.or_true]
      exact ⟨rfl, h.2⟩

/-- After any history the timeout is set exactly if there was a call of `set_timeout`. -/
theorem run_flag {E : DkgEnv F G} {d : Dkg F G} (hre : d.isResharing = false) (hnd : d.c.newNodes.Nodup)
    {b : Bool} {t0 j : Nat} {v : Verifier F G} (hv : d.verifiers.get j = some v) (h : Flag b t0 v.aggregator)
    (cs : List (DCall F G)) :
    ∃ w, (dRun E d cs).verifiers.get j = some w ∧
      Flag (b || cs.any (fun c => isTimeout c)) t0 w.aggregator := by
  induction cs generalizing d v b with
  | nil => exact ⟨v, hv, by simpa using h⟩
  | cons c cs ih =>
    obtain ⟨w, hw, hf⟩ := step_flag (E := E) hre hnd hv h c
    have hev := dStep_evolves E d c
    obtain ⟨u, hu, hu'⟩ := ih (d := dStep E d c) (by rw [hev.isResharing]; exact hre)
      (by rw [hev.c]; exact hnd) hw hf
    exact ⟨u, hu, by rw [List.any_cons, ← Bool.or_assoc]; exact hu'⟩

/-! ### Who is qualified when messages are missing -/

/-- Participant `i` knows an approval by `l` of the deal of `j`: it received the deal and is `l` or `j`
is `l`, or it received the response. -/
def Heard (i : Nat) (s : List HMsg) (j l : Nat) : Prop :=
  (if j = i then HMsg.deals ∈ s else HMsg.deal j ∈ s) ∧ (l = i ∨ l = j) ∨ HMsg.resp j l ∈ s

instance (i : Nat) (s : List HMsg) (j l : Nat) : Decidable (Heard i s j l) := by unfold Heard; infer_instance

theorem heard_iff (E : DkgEnv F G) (N : Net F G) (i : Nat) (s : List HMsg) (j l : Nat) :
    Heard i s j l ↔ (stored E N i s j l).isSome := by
  unfold Heard stored
  show got i s j ∧ _ ∨ _ ↔ _
  by_cases hg : got i s j <;> by_cases h1 : l = i <;> by_cases h2 : l = j <;>
    by_cases h3 : HMsg.resp j l ∈ s <;> simp [hg, h1, h2, h3] <;> simp_all

theorem stored_status (E : DkgEnv F G) (N : Net F G) (i : Nat) (s : List HMsg) (j l : Nat) (r : VssP.Response)
    (h : stored E N i s j l = some r) : r.status = true := by
  unfold stored at h
  split at h
  · cases h; rfl
  split at h
  · cases h; rfl
  split at h
  · cases h; rfl
  · cases h

/-- C129: which dealers are qualified after any part of a run in which nobody complains, whatever has
arrived. After a timeout: those of which as many approvals are known as the threshold, which is the
one in the deal, or, without the deal, the one given at the start. Before: those all approved. -/
theorem C129_qualified (E : DkgEnv F G) (hS : E.suite.Lawful) (hP : E.prims.Lawful)
    (hO : PrimsOk E) (N : Net F G) (H : Nat → Prop) (h : N.Fair E H)
    (hC : ∀ j < N.n, ∀ dl ∈ (N.D j).dealer.deals, E.codec.dec (E.codec.enc dl) = some dl) (z : F)
    (i : Nat) (hi : i < N.n) (hh : H i) (s : List HMsg) (hs : Schedule N.n i s) (j : Nat) :
    Qualified (dRun E (N.D i) (s.map (HMsg.call E N z i))) j ↔ j < N.n ∧
      if HMsg.timeout ∈ s then
        (if (if j = i then HMsg.deals ∈ s else HMsg.deal j ∈ s) then (N.D j).newT else N.t) ≤
          ((Finset.range N.n).filter (Heard i s j)).card
      else ∀ l < N.n, Heard i s j l := by
  obtain ⟨hI, -⟩ := inv_run hS hP hO h hC hi hh z s hs
  set d := dRun E (N.D i) (s.map (HMsg.call E N z i)) with hd
  have hT : ∀ j < N.n, (N.D j).newT ≤ N.n := by
    intro j hj
    have hv := (convincing hS.base_lin h hj).valid
    unfold validT at hv
    simp only [Bool.and_eq_true, decide_eq_true_eq, pubs_length] at hv
    exact hv.1.2
  by_cases hj : j < N.n
  swap
  · constructor
    · rintro ⟨v, hv, -⟩
      have hk : j ∈ d.verifiers.keys := AMap.get_isSome.1 (by rw [hv]; rfl)
      rw [hd, (dRun_evolves E (N.D i) _).keys, (honest_new h hi hh).2.2.1, startVers_keys,
        (honest_new h hi hh).1.oldNodes, pubs_length] at hk
      exact absurd (List.mem_range.1 hk) hj
    · rintro ⟨hj', -⟩
      exact absurd hj' hj
  obtain ⟨v, hv, h1, h2⟩ := hI.ver j hj
  have hflag : Flag (decide (HMsg.timeout ∈ s)) N.t v.aggregator := by
    obtain ⟨hst, -, hvers, -, hthr⟩ := honest_new h hi hh
    have hstart : (N.D i).verifiers.get j =
        some (startVer E.suite (N.x i) (N.pubs E) N.t i (N.x j • E.suite.base)) := by
      rw [hvers, startVers_get, hst.oldNodes, hst.longterm, hst.newNodes, hthr, pubs_get E N hj]
      rfl
    obtain ⟨w, hw, hf⟩ := run_flag (E := E) hst.re (by rw [hst.newNodes]; exact h.nodup) (b := false) (t0 := N.t) hstart
      ⟨rfl, fun _ => rfl⟩ (s.map (HMsg.call E N z i))
    rw [← hd, hv] at hw
    cases hw
    have : (s.map (HMsg.call E N z i)).any (fun c => isTimeout c) = decide (HMsg.timeout ∈ s) := by
      rw [Bool.eq_iff_iff, List.any_eq_true, decide_eq_true_eq]
      constructor
      · rintro ⟨c, hc, hm⟩
        obtain ⟨m, hm', rfl⟩ := List.mem_map.1 hc
        cases m <;> simp [HMsg.call, isTimeout] at hm
        exact hm'
      · intro hm
        exact ⟨_, List.mem_map.2 ⟨_, hm, rfl⟩, rfl⟩
    rwa [Bool.false_or, this] at hf
  have hstat : ∀ l r, v.aggregator.responses.get l = some r → r.status = true := by
    intro l r hr
    rw [h2.resp] at hr
    exact stored_status E N i s j l r hr
  have hlen : v.aggregator.verifiers.length = N.n := by rw [h1.aggv, pubs_length]
  have happ : approvedBy v.aggregator.responses N.n = (Finset.range N.n).filter (Heard i s j) := by
    unfold approvedBy
    refine Finset.filter_congr (fun l _ => ?_)
    rw [heard_iff E N, ← h2.resp]
    cases hr : v.aggregator.responses.get l with
    | none => simp
    | some r => simp [hstat l r hr]
  have hcom : complainedBy v.aggregator.responses N.n = ∅ := by
    unfold complainedBy
    rw [Finset.filter_eq_empty_iff]
    rintro l - ⟨r, hr, hf⟩
    rw [hstat l r hr] at hf; cases hf
  have hmis : missing v.aggregator.responses N.n = (Finset.range N.n).filter (fun l => ¬ Heard i s j l) := by
    unfold missing
    refine Finset.filter_congr (fun l _ => ?_)
    rw [heard_iff E N, ← h2.resp]
    cases v.aggregator.responses.get l <;> simp
  have hsum : ((Finset.range N.n).filter (Heard i s j)).card +
      ((Finset.range N.n).filter (fun l => ¬ Heard i s j l)).card = N.n := by
    rw [Finset.card_filter_add_card_filter_not, Finset.card_range]
  have ht : v.aggregator.t =
      if (if j = i then HMsg.deals ∈ s else HMsg.deal j ∈ s) then (N.D j).newT else N.t := by
    show _ = if got i s j then _ else _
    split
    · rename_i hg
      rw [if_pos hg] at h2
      exact h2.t _ rfl
    · rename_i hg
      rw [if_neg hg] at h2
      exact hflag.2 h2.deal
  have hq : Qualified d j ↔ v.aggregator.dealCertified = true := by
    constructor
    · rintro ⟨w, hw, hc⟩
      rw [hv] at hw
      cases hw
      exact hc
    · exact fun hc => ⟨v, hv, hc⟩
  rw [hq, C23_certified_iff, hlen, happ, hcom, hmis, hflag.1, h1.bad, ← ht]
  simp only [true_and, hj]
  by_cases hto : HMsg.timeout ∈ s
  · simp only [hto, decide_true, if_true]
    constructor
    · exact fun hx => hx.1
    · exact fun hx => ⟨hx, by omega⟩
  · simp only [hto, decide_false, Bool.false_eq_true, if_false]
    constructor
    · intro hx l hl
      by_contra hc
      have := hx.2 ▸ Finset.mem_filter.2 ⟨Finset.mem_range.2 hl, hc⟩
      simp at this
    · intro hx
      refine ⟨?_, Finset.filter_eq_empty_iff.2 (fun l hl hc => hc (hx l (Finset.mem_range.1 hl)))⟩
      have hall : (Finset.range N.n).filter (Heard i s j) = Finset.range N.n :=
        Finset.filter_true_of_mem (fun l hl => hx l (Finset.mem_range.1 hl))
      rw [hall, Finset.card_range, ht]
      have hg : (if j = i then HMsg.deals ∈ s else HMsg.deal j ∈ s) := by
        rcases hx i hi with ⟨h', -⟩ | h'
        · exact h'
        · exact absurd rfl (hs.wanted _ h').2.2.1
      rw [if_pos hg]
      exact hT j hj

/-! ### Silent participants -/

/-- At participant `i` everything from the participants in `A` has arrived, and nothing from the others,
who have sent neither deals nor responses. -/
structure OnlyFrom (A : Finset Nat) (i : Nat) (s : List HMsg) : Prop where
  deals : HMsg.deals ∈ s
  deal : ∀ j, HMsg.deal j ∈ s ↔ j ∈ A ∧ j ≠ i
  resp : ∀ j l, HMsg.resp j l ∈ s ↔ j ∈ A ∧ l ∈ A ∧ l ≠ i ∧ l ≠ j

/-- The sum of the secret polynomials of the participants in `A`. -/
def sumPolyOn (N : Net F G) (A : Finset Nat) (T : Nat) : List F :=
  (List.range T).map (fun c => ∑ j ∈ A, (netPoly N T j).getD c 0)

theorem sumPolyOn_val (N : Net F G) (A : Finset Nat) (T : Nat) (hl : ∀ j ∈ A, (netPoly N T j).length = T) (x : F) :
    polyVal (sumPolyOn N A T) x = ∑ j ∈ A, polyVal (netPoly N T j) x := by
  unfold polyVal
  have h1 : ∀ j ∈ A,
      (∑ k ∈ Finset.range (netPoly N T j).length, (netPoly N T j).getD k 0 * x ^ k) =
      ∑ k ∈ Finset.range T, (netPoly N T j).getD k 0 * x ^ k := by
    intro j hj
    rw [hl j hj]
  rw [Finset.sum_congr rfl h1, Finset.sum_comm]
  unfold sumPolyOn
  rw [List.length_map, List.length_range]
  refine Finset.sum_congr rfl (fun k hk => ?_)
  rw [List.getD_eq_getElem?_getD, List.getElem?_map, List.getElem?_range (Finset.mem_range.1 hk),
    Option.map_some, Option.getD_some, Finset.sum_mul]

theorem heard_onlyFrom {A : Finset Nat} {i : Nat} {s : List HMsg} (hi : i ∈ A) (h : OnlyFrom A i s) (j l : Nat) :
    Heard i s j l ↔ j ∈ A ∧ l ∈ A := by
  unfold Heard
  rw [h.resp]
  by_cases hj : j = i
  · subst hj
    rw [if_pos rfl]
    simp only [h.deals, true_and, or_self]
    constructor
    · rintro (rfl | ⟨h1, h2, -⟩)
      · exact ⟨hi, hi⟩
      · exact ⟨h1, h2⟩
    · rintro ⟨h1, h2⟩
      by_cases e : l = j
      · exact Or.inl e
      · exact Or.inr ⟨h1, h2, e, e⟩
  · rw [if_neg hj, h.deal]
    constructor
    · rintro (⟨⟨h1, -⟩, rfl | rfl⟩ | ⟨h1, h2, -⟩)
      · exact ⟨h1, hi⟩
      · exact ⟨h1, h1⟩
      · exact ⟨h1, h2⟩
    · rintro ⟨h1, h2⟩
      by_cases e : l = i
      · exact Or.inl ⟨⟨h1, hj⟩, Or.inl e⟩
      by_cases e' : l = j
      · exact Or.inl ⟨⟨h1, hj⟩, Or.inr e'⟩
      · exact Or.inr ⟨h1, h2, e, e'⟩

/-- C129: `n` participants with distinct keys, those outside `A` silent from the start. At each participant
in `A` the messages from `A` arrive in any order, and it sets a timeout at any time. With a threshold
given to the constructor and at least so many participants in `A`, each of them gets, for every
iteration order, the same commitments, those of the sum of the secret polynomials of `A`, and its value
at the own index as share. With fewer participants none of them gets a key. -/
theorem C129_silent (E : DkgEnv F G) (hS : E.suite.Lawful) (hP : E.prims.Lawful)
    (hO : PrimsOk E) (N : Net F G) (h : N.Honest E)
    (hC : ∀ j < N.n, ∀ dl ∈ (N.D j).dealer.deals, E.codec.dec (E.codec.enc dl) = some dl) (z : F)
    (ht : N.t ≠ 0) (A : Finset Nat) (hA : ∀ j ∈ A, j < N.n)
    (i : Nat) (hi : i ∈ A) (s : List HMsg) (hs : Schedule N.n i s) (ho : OnlyFrom A i s)
    (hto : HMsg.timeout ∈ s) (ord : MapOrder) :
    (N.t ≤ A.card →
      (dRun E (N.D i) (s.map (HMsg.call E N z i))).thresholdCertified ord = true ∧
      (∀ j, j ∈ (dRun E (N.D i) (s.map (HMsg.call E N z i))).qual ord ↔ j ∈ A) ∧
      (dRun E (N.D i) (s.map (HMsg.call E N z i))).distKeyShare E.suite ord = .ok
        { commits := (sumPolyOn N A N.t).map (fun c => c • E.suite.base)
          share := ⟨i, polyVal (sumPolyOn N A N.t) ((i + 1 : Nat) : F)⟩
          privatePoly := netPoly N N.t i }) ∧
    (A.card < N.t →
      (dRun E (N.D i) (s.map (HMsg.call E N z i))).thresholdCertified ord = false ∧
      ∀ key, (dRun E (N.D i) (s.map (HMsg.call E N z i))).distKeyShare E.suite ord ≠ .ok key) := by
  have hin := hA i hi
  obtain ⟨hI, -⟩ := inv_run hS hP hO h.fair hC hin trivial z s hs
  have hnT : ∀ j < N.n, (N.D j).newT = N.t := by
    intro j hj
    rw [(newDistKeyHandler_ok (h.start j hj)).newT, if_pos ht]
  have hgot : ∀ j, got i s j ↔ j ∈ A := by
    intro j
    unfold got
    split
    · rename_i e; subst e; exact ⟨fun _ => hi, fun _ => ho.deals⟩
    · rename_i e; rw [ho.deal]; exact ⟨fun h => h.1, fun h => ⟨h, e⟩⟩
  have hcard : ∀ j, ((Finset.range N.n).filter (Heard i s j)).card = if j ∈ A then A.card else 0 := by
    intro j
    split
    · rename_i hj
      congr 1
      ext l
      rw [Finset.mem_filter, heard_onlyFrom hi ho, Finset.mem_range]
      exact ⟨fun h => h.2.2, fun h => ⟨hA l h, hj, h⟩⟩
    · rename_i hj
      rw [Finset.card_eq_zero, Finset.filter_eq_empty_iff]
      intro l _
      rw [heard_onlyFrom hi ho]
      exact fun h => hj h.1
  have hq : ∀ j, Qualified (dRun E (N.D i) (s.map (HMsg.call E N z i))) j ↔ j ∈ A ∧ N.t ≤ A.card := by
    intro j
    rw [C129_qualified E hS hP hO N _ h.fair hC z i hin trivial s hs j, if_pos hto, hcard]
    show j < N.n ∧ (if got i s j then _ else _) ≤ _ ↔ _
    constructor
    · rintro ⟨hj, h'⟩
      by_cases hjA : j ∈ A
      · rw [if_pos ((hgot j).2 hjA), if_pos hjA, hnT j hj] at h'
        exact ⟨hjA, h'⟩
      · rw [if_neg (mt (hgot j).1 hjA), if_neg hjA] at h'
        omega
    · rintro ⟨hjA, h'⟩
      rw [if_pos ((hgot j).2 hjA), if_pos hjA, hnT j (hA j hjA)]
      exact ⟨hA j hjA, h'⟩
  obtain ⟨hst, -⟩ := honest_new h.fair hin trivial
  have hthr := C36_threshold_certified E _ _ _ (N.D i) (h.start i hin) hst.new (s.map (HMsg.call E N z i)) ord
  simp only [Option.isSome_none, Bool.or_self, Bool.false_eq_true, if_false] at hthr
  constructor
  · intro hle
    have hQ : ∀ j, j ∈ A ↔ Qualified (dRun E (N.D i) (s.map (HMsg.call E N z i))) j :=
      fun j => by rw [hq]; exact ⟨fun h => ⟨h, hle⟩, fun h => h.1⟩
    refine ⟨(hthr A hQ).2 hle, fun j => ?_, ?_⟩
    · have := (C36_qual E _ _ _ (N.D i) (h.start i hin) hst.new (s.map (HMsg.call E N z i)) ord ord).1 j
      rw [this, hQ]
      unfold Qualified
      simp only [C23_certified_iff]
    · rw [C33_dist_key_share_iff E _ _ _ _ _ (N.D i) (h.start i hin) _ ord _ _ hQ, hst.nidx]
      have hdl : ∀ j < N.n, (N.D j).dealer.secretPoly = ⟨netPoly N N.t j⟩ ∧
          (N.D j).dealer.secretCommits = (netPoly N N.t j).map (fun c => c • E.suite.base) ∧
          (netPoly N N.t j).length = N.t := by
        intro j hj
        obtain ⟨-, hdl, -⟩ := honest_new h.fair hj trivial
        rw [hnT j hj] at hdl
        obtain ⟨hv, hdr, -, -, -, -, -, h6, h7, -⟩ := newDealer_ok hdl
        refine ⟨h6, h7, ?_⟩
        unfold netPoly
        rw [List.length_cons, List.length_take]
        omega
      refine ⟨hle, ⟨i, hi⟩, fun j => N.plain j i, N.t, fun j hj => ?_, ?_⟩
      · obtain ⟨v, hv, -, h2⟩ := hI.ver j (hA j hj)
        rw [if_pos ((hgot j).2 hj)] at h2
        refine ⟨v, hv, h2.deal, ?_⟩
        show (N.D j).dealer.secretCommits.length = _
        rw [(hdl j (hA j hj)).2.1, List.length_map, (hdl j (hA j hj)).2.2]
      · congr 1
        · unfold sumPolyOn
          rw [List.map_map]
          refine List.map_congr_left (fun c hc => ?_)
          simp only [Function.comp_apply]
          rw [hS.base_lin.sum]
          refine Finset.sum_congr rfl (fun j hj => ?_)
          show _ = (N.D j).dealer.secretCommits.getD c 0
          obtain ⟨-, h7, hl⟩ := hdl j (hA j hj)
          have hc' : c < (netPoly N N.t j).length := by rw [hl]; exact List.mem_range.1 hc
          rw [h7, List.getD_eq_getElem?_getD, List.getD_eq_getElem?_getD, List.getElem?_map,
            List.getElem?_eq_getElem hc']
          rfl
        · congr 1
          rw [sumPolyOn_val N A N.t (fun j hj => (hdl j (hA j hj)).2.2)]
          refine Finset.sum_congr rfl (fun j hj => ?_)
          show _ = ((N.D j).dealer.secretPoly.eval i).v
          rw [(hdl j (hA j hj)).1, C01_eval_genuine]
        · rw [(hdl i hin).1]
  · intro hlt
    have hQ : ∀ j, j ∈ (∅ : Finset Nat) ↔ Qualified (dRun E (N.D i) (s.map (HMsg.call E N z i))) j :=
      fun j => by
        rw [hq]
        constructor
        · intro h'; simp at h'
        · intro h'; omega
    refine ⟨?_, fun key hk => ?_⟩
    · rw [Bool.eq_false_iff]
      intro hc
      have := (hthr ∅ hQ).1 hc
      simp at this
      exact ht this
    · rw [C33_dist_key_share_iff E _ _ _ _ _ (N.D i) (h.start i hin) _ ord _ _ hQ] at hk
      exact absurd hk.2.1 (by simp)

/-- C129: without a timeout, or without a threshold given to the constructor, one silent participant is enough
to keep every participant from getting a key. -/
theorem C129_blocked (E : DkgEnv F G) (hS : E.suite.Lawful) (hP : E.prims.Lawful)
    (hO : PrimsOk E) (N : Net F G) (h : N.Honest E)
    (hC : ∀ j < N.n, ∀ dl ∈ (N.D j).dealer.deals, E.codec.dec (E.codec.enc dl) = some dl) (z : F)
    (A : Finset Nat) (p : Nat) (hp : p < N.n) (hpA : p ∉ A)
    (i : Nat) (hin : i < N.n) (hi : i ∈ A) (s : List HMsg) (hs : Schedule N.n i s) (ho : OnlyFrom A i s)
    (hto : HMsg.timeout ∉ s ∨ N.t = 0) (ord : MapOrder) (key : DistKeyShare F G) :
    (dRun E (N.D i) (s.map (HMsg.call E N z i))).distKeyShare E.suite ord ≠ .ok key := by
  intro hk
  obtain ⟨hI, -⟩ := inv_run hS hP hO h.fair hC hin trivial z s hs
  have hq := C129_qualified E hS hP hO N _ h.fair hC z i hin trivial s hs
  classical
  set Q := (Finset.range N.n).filter (Qualified (dRun E (N.D i) (s.map (HMsg.call E N z i)))) with hQd
  have hQ : ∀ j, j ∈ Q ↔ Qualified (dRun E (N.D i) (s.map (HMsg.call E N z i))) j := by
    intro j
    rw [hQd, Finset.mem_filter, Finset.mem_range]
    exact ⟨fun h => h.2, fun h => ⟨((hq j).1 h).1, h⟩⟩
  rw [C33_dist_key_share_iff E _ _ _ _ _ (N.D i) (h.start i hin) _ ord _ _ hQ] at hk
  obtain ⟨-, ⟨q, hqQ⟩, D, len, hD, -⟩ := hk
  by_cases ht : HMsg.timeout ∈ s
  · have ht0 : N.t = 0 := hto.resolve_left (fun h => h ht)
    have hpq : p ∈ Q := by
      rw [hQ, hq p, if_pos ht]
      refine ⟨hp, ?_⟩
      have hg : ¬ (if p = i then HMsg.deals ∈ s else HMsg.deal p ∈ s) := by
        rw [if_neg (by rintro rfl; exact hpA hi), ho.deal]
        exact fun h => hpA h.1
      rw [if_neg hg, ht0]
      exact Nat.zero_le _
    obtain ⟨v, hv, hdeal, -⟩ := hD p hpq
    obtain ⟨v', hv', -, h2⟩ := hI.ver p hp
    rw [hv] at hv'
    cases hv'
    have hg : ¬ got i s p := by
      unfold got
      rw [if_neg (by rintro rfl; exact hpA hi), ho.deal]
      exact fun h => hpA h.1
    rw [if_neg hg] at h2
    rw [h2.deal] at hdeal
    cases hdeal
  · have := (hq q).1 ((hQ q).1 hqQ)
    rw [if_neg ht] at this
    exact hpA ((heard_onlyFrom hi ho q p).1 (this.2 p hp)).2

/-- C129: any `t` of the participants in `A` recover the sum of their secrets from their shares, and the
distributed key is the public key of it. -/
theorem C129_recover (q : Nat) [CharP F q] (S : Suite F G) (N : Net F G) (A : Finset Nat)
    (hA : ∀ j ∈ A, j < N.n) (hn : N.n ≤ q) (ht : N.t ≠ 0) (ord : MapOrder) (sel : List Nat)
    (hsel : ∀ i ∈ sel, i ∈ A) (hcount : N.t ≤ sel.toFinset.card) :
    recoverSecret ord (sel.map (fun i => some ⟨i, polyVal (sumPolyOn N A N.t) ((i + 1 : Nat) : F)⟩)) N.t =
      .ok (∑ j ∈ A, N.sec j) ∧
    ((sumPolyOn N A N.t).map (fun c => c • S.base)).head? = some ((∑ j ∈ A, N.sec j) • S.base) := by
  obtain ⟨T', hT'⟩ : ∃ T', N.t = T' + 1 := ⟨N.t - 1, by omega⟩
  have hcons : sumPolyOn N A N.t = (∑ j ∈ A, N.sec j) :: (sumPolyOn N A N.t).tail := by
    unfold sumPolyOn
    rw [hT', List.range_succ_eq_map, List.map_cons, List.tail_cons]
    rfl
  have hind : indices (sel.map (fun i => some
      (⟨i, polyVal (sumPolyOn N A N.t) ((i + 1 : Nat) : F)⟩ : Share F))) = sel.toFinset := by
    rw [show (fun i : Nat => some (⟨i, polyVal (sumPolyOn N A N.t) ((i + 1 : Nat) : F)⟩ : Share F)) =
      fun i => some ((fun i => (⟨i, polyVal (sumPolyOn N A N.t) ((i + 1 : Nat) : F)⟩ : Share F)) i)
      from rfl, indices_map_some]
    simp
  refine ⟨?_, by rw [hcons]; rfl⟩
  apply C01_recover_secret q ord _ (sumPolyOn N A N.t).tail
  · rw [← hcons]
    intro s hs
    obtain ⟨i, hi, he⟩ := List.mem_map.1 hs
    cases he
    rfl
  · intro i hi
    rw [hind, List.mem_toFinset] at hi
    exact lt_of_lt_of_le (hA i (hsel i hi)) hn
  · rw [← hcons]; unfold sumPolyOn; simp
  · rw [hind]; exact hcount

end

namespace DkgPExample

open Kyber.Toy

/-- Participant 0 is silent: all messages that reach participant 1, the response before the own deals. -/
def schedSilent : List HMsg := [.resp 1 2, .deal 2, .timeout, .deals]

theorem schedSilent_ok : Schedule 3 1 schedSilent ∧ OnlyFrom {1, 2} 1 schedSilent := by
  refine ⟨⟨?_, ?_⟩, by decide, ?_, ?_⟩
  · intro m hm
    simp only [schedSilent, List.mem_cons, List.not_mem_nil, or_false] at hm
    rcases hm with rfl | rfl | rfl | rfl <;> simp [HMsg.Wanted]
  · intro m hm
    by_cases hin : m ∈ schedSilent
    · simp only [schedSilent, List.mem_cons, List.not_mem_nil, or_false] at hin
      rcases hin with rfl | rfl | rfl | rfl <;> revert hm <;> decide
    · rw [List.count_eq_zero_of_not_mem hin]; omega
  · intro j
    simp [schedSilent]
    omega
  · intro j l
    simp [schedSilent]
    omega

/-- The hypotheses of `C129_silent` hold for three participants, one of them silent, with threshold 2; the key
is that of the secret 1 + 4. -/
example : (net envD).t = 2 ∧ (net envD).Honest envD ∧ Schedule 3 1 schedSilent ∧ OnlyFrom {1, 2} 1 schedSilent ∧
    HMsg.timeout ∈ schedSilent ∧ (net envD).t ≤ Finset.card {1, 2} ∧
    (dRun envD ((net envD).D 1) (schedSilent.map (HMsg.call envD (net envD) 1 1))).distKeyShare
      envD.suite MapOrder.rev =
      .ok ⟨[(1 + 4) * 2, (6 + 9) * 2], ⟨1, (1 + 4) + (6 + 9) * 2⟩, [1, 6]⟩ := by
  refine ⟨by decide, net_honest, schedSilent_ok.1, schedSilent_ok.2, by decide, by decide, ?_⟩
  decide +kernel

/-- Without the timeout participant 1 gets nothing (`C129_blocked`). -/
example : ((dRun envD ((net envD).D 1)
    ([HMsg.resp 1 2, .deal 2, .deals].map (HMsg.call envD (net envD) 1 1))).distKeyShare
      envD.suite MapOrder.rev) = .err .distributedKeyNotCertified := by
  decide +kernel

/-- `C129_recover` on the shares of participants 2 and 1. -/
example : Poly.recoverSecret MapOrder.rev ([2, 1].map (fun i => some
    (⟨i, polyVal (sumPolyOn (net envD) {1, 2} 2) ((i + 1 : Nat) : ZMod 11)⟩ : Share (ZMod 11)))) 2 =
      .ok (1 + 4) :=
  (C129_recover 11 suite (net envD) {1, 2} (by intro j hj; have : j = 1 ∨ j = 2 := by simpa using hj
                                               show j < 3; omega) (by decide) (by decide) MapOrder.rev [2, 1]
    (by intro i hi; have : i = 2 ∨ i = 1 := by simpa using hi
        simp; omega) (by decide)).1

/-- `C129_qualified` in the history with a silent participant. -/
example := C129_qualified envD lawful prims_lawful ⟨fun _ _ => rfl, fun _ _ _ _ => rfl⟩ (net envD) (fun _ => True)
  net_honest.fair (fun _ _ dl _ => codecP_lawful dl) 1 1 (by decide) trivial schedSilent schedSilent_ok.1 2

end DkgPExample

end Kyber.Props
