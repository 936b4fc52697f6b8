/-
Property C33 for the Pedersen DKG (`src/share/dkg/pedersen/dkg.rs`): the honest run.
-/
import Verif.Lemmas.DkgPedersenRun
import Verif.Props.DkgPedersen
import Verif.Props.Shamir
import Verif.Spec.ToyDkg

set_option linter.unusedSectionVars false

namespace Kyber.Props

open Kyber Kyber.Poly Kyber.Spec Kyber.VssP Kyber.DkgP

variable {F G : Type} [Field F] [AddCommGroup G] [DecidableEq G]

section

variable [SMul F G]

/-- The secret polynomial of participant `j` for the threshold `T`. -/
def netPoly (N : Net F G) (T j : Nat) : List F := N.sec j :: (N.draws j).take (T - 1)

/-- The sum of the secret polynomials. -/
def sumPoly (N : Net F G) (T : Nat) : List F :=
  (List.range T).map (fun c => ∑ j ∈ Finset.range N.n, (netPoly N T j).getD c 0)

theorem sumPoly_val (N : Net F G) (T : Nat) (hl : ∀ j < N.n, (netPoly N T j).length = T) (x : F) :
    polyVal (sumPoly N T) x = ∑ j ∈ Finset.range N.n, polyVal (netPoly N T j) x := by
  unfold polyVal
  have h1 : ∀ j ∈ Finset.range N.n,
      (∑ k ∈ Finset.range (netPoly N T j).length, (netPoly N T j).getD k 0 * x ^ k) =
      ∑ k ∈ Finset.range T, (netPoly N T j).getD k 0 * x ^ k := by
    intro j hj
    rw [hl j (Finset.mem_range.1 hj)]
  rw [Finset.sum_congr rfl h1, Finset.sum_comm]
  unfold sumPoly
  rw [List.length_map, List.length_range]
  refine Finset.sum_congr rfl (fun k hk => ?_)
  rw [List.getD_eq_getElem?_getD, List.getElem?_map, List.getElem?_range (Finset.mem_range.1 hk),
    Option.map_some, Option.getD_some, Finset.sum_mul]

/-- C33: which parameters `new_dist_key_generator` accepts, given enough randomness. -/
theorem C33_new_generator_ok (S : Suite F G) (x : F) (pubs : List G) (t T : Nat) (secret : F) (draws : List F)
    (hT : T = if t ≠ 0 then t else minimumT pubs.length) (hdr : T - 1 ≤ draws.length)
    (hn : pubs.length < 2 ^ 32) :
    (∃ d, newDistKeyGenerator S x pubs t secret draws = .ok d) ↔
      x • S.base ∈ pubs ∧ 2 ≤ T ∧ T ≤ pubs.length := by
  have hf : x • S.base ∈ pubs ↔ (DkgP.findPub pubs (x • S.base)).2 = true := by
    unfold DkgP.findPub
    split
    · rename_i i hi
      obtain ⟨hl, he, -⟩ := List.findIdx?_eq_some_iff_getElem.1 hi
      simp only [decide_eq_true_eq] at he
      exact ⟨fun _ => rfl, fun _ => he ▸ List.getElem_mem hl⟩
    · rename_i hi
      rw [List.findIdx?_eq_none_iff] at hi
      refine ⟨fun h => ?_, fun h => by cases h⟩
      have := hi _ h
      simp at this
  constructor
  · rintro ⟨d, hd⟩
    have hst := newDistKeyHandler_ok hd
    have hp : (DkgP.findPub pubs (x • S.base)).2 = true := by
      unfold newDistKeyGenerator newDistKeyHandler at hd
      rw [Res.ite_err_eq_ok] at hd
      simp only at hd
      rw [Res.ite_err_eq_ok, Res.ite_err_eq_ok, Res.ite_err_eq_ok] at hd
      obtain ⟨-, -, -, h, -⟩ := hd
      by_contra hc
      rw [Bool.not_eq_true] at hc
      exact h ⟨rfl, hc⟩
    have hpr : d.newPresent = true := by
      have := hst.nidx
      rw [← hp, this]
    obtain ⟨-, -, h3⟩ := hst.fresh hst.resharing hpr
    have hT' : d.newT = T := by rw [hst.newT, hT]
    rw [hT'] at h3
    exact ⟨hf.2 hp, (C22_new_dealer_ok S x secret pubs T draws hdr hn).1 ⟨_, h3⟩⟩
  · rintro ⟨h1, h2⟩
    obtain ⟨dl, hdl⟩ := (C22_new_dealer_ok S x secret pubs T draws hdr hn).2 h2
    have hp := hf.1 h1
    have hne : pubs ≠ [] := List.ne_nil_of_mem h1
    unfold newDistKeyGenerator newDistKeyHandler
    rw [if_neg (by rintro ⟨h, -⟩; exact hne h)]
    simp only [Option.isSome_none, Bool.or_self, Bool.false_eq_true, false_and, if_false, hp,
      Bool.true_eq_false, and_false, and_self, if_true]
    rw [← hT, hdl]
    simp only [Res.mapErr_ok, Res.bind_ok]
    rw [initVerifiers_eq S _ (DkgP.findPub pubs (x • S.base)).1 (Prod.ext rfl hp)]
    split
    · exact ⟨_, rfl⟩
    · rename_i h
      split at h <;> cases h
    · exact ⟨_, rfl⟩


/-- Four participants and the default threshold, which is 2. -/
example : ∃ d, newDistKeyGenerator Toy.suite 3 [6, 10, 4, 8] 0 7 [5, 1, 1] = .ok d :=
  (C33_new_generator_ok Toy.suite 3 [6, 10, 4, 8] 0 2 7 [5, 1, 1] (by decide) (by decide) (by decide)).2
    (by decide)

/-- C127: the participants in `H` follow the protocol, the other dealers convince them, and everybody
approves. Then every call of every participant in `H` succeeds; when everything has arrived, it is
certified, and it gets a key exactly if all dealers sent the same number of commitments: the sums of
the commitments and of the shares it was sent. -/
theorem C127_fair_run (E : DkgEnv F G) (hS : E.suite.Lawful) (hP : E.prims.Lawful)
    (hO : PrimsOk E) (N : Net F G) (H : Nat → Prop) (h : N.Fair E H)
    (hC : ∀ j < N.n, ∀ dl ∈ (N.D j).dealer.deals, E.codec.dec (E.codec.enc dl) = some dl) (z : F)
    (i : Nat) (hi : i < N.n) (hh : H i) (s : List HMsg) (hs : Schedule N.n i s) :
    (∀ pre m post, s = pre ++ m :: post →
      m.Succeeds E N z i (dRun E (N.D i) (pre.map (HMsg.call E N z i)))) ∧
    (Complete N.n i s → ∀ ord,
      (dRun E (N.D i) (s.map (HMsg.call E N z i))).certified ord = true ∧
      ∀ key, (dRun E (N.D i) (s.map (HMsg.call E N z i))).distKeyShare E.suite ord = .ok key ↔
        ∃ len, (∀ j < N.n, (N.D j).dealer.secretCommits.length = len) ∧
          key = { commits := (List.range len).map
                    (fun c => ∑ j ∈ Finset.range N.n, (N.D j).dealer.secretCommits.getD c 0)
                  share := ⟨i, ∑ j ∈ Finset.range N.n, ((N.D j).dealer.secretPoly.eval i).v⟩
                  privatePoly := (N.D i).dealer.secretPoly.coeffs }) := by
  obtain ⟨hI, hsucc⟩ := inv_run hS hP hO h hC hi hh z s hs
  refine ⟨hsucc, fun hcomp ord => ?_⟩
  set d := dRun E (N.D i) (s.map (HMsg.call E N z i)) with hd
  have hT : ∀ j < N.n, (N.D j).newT ≤ N.n := by
    intro j hj
    have hv := (convincing hS.base_lin h hj).valid
    unfold validT at hv
    simp only [Bool.and_eq_true, decide_eq_true_eq, pubs_length] at hv
    exact hv.1.2
  have hgot : ∀ j < N.n, got i s j := by
    intro j hj
    unfold got
    split
    · exact hcomp .deals trivial (by simp)
    · exact hcomp (.deal j) ⟨hj, by assumption⟩ (by simp)
  have hcert : ∀ j < N.n, ∃ v, d.verifiers.get j = some v ∧ v.aggregator.deal = some (N.plain j i) ∧
      v.aggregator.dealCertified = true ∧
      missing v.aggregator.responses v.aggregator.verifiers.length = ∅ := by
    intro j hj
    obtain ⟨v, hv, h1, h2⟩ := hI.ver j hj
    rw [if_pos (hgot j hj)] at h2
    have hall : ∀ l < N.n, ∃ r, stored E N i s j l = some r ∧ r.status = true := by
      intro l hl
      unfold stored
      split
      · exact ⟨_, rfl, rfl⟩
      · rename_i hli
        have hli : l ≠ i := fun e => hli ⟨hgot j hj, e⟩
        split
        · exact ⟨_, rfl, rfl⟩
        · rename_i hlj
          have hlj : l ≠ j := fun e => hlj ⟨hgot j hj, e⟩
          rw [if_pos (hcomp (.resp j l) ⟨hj, hl, hli, hlj⟩ (by simp))]
          exact ⟨_, rfl, rfl⟩
    refine ⟨v, hv, h2.deal, certified_of_dyn h1 h2 ?_ (by rw [pubs_length]; exact hall), ?_⟩
    · show (N.D j).newT ≤ _
      rw [pubs_length]; exact hT j hj
    · unfold missing
      rw [Finset.filter_eq_empty_iff]
      intro l hl hn
      rw [h1.aggv, pubs_length] at hl
      obtain ⟨r, hr, -⟩ := hall l (Finset.mem_range.1 hl)
      rw [h2.resp, hr] at hn; cases hn
  have hQ : ∀ j, j ∈ Finset.range N.n ↔ Qualified d j := by
    intro j
    rw [Finset.mem_range]
    constructor
    · intro hj
      obtain ⟨v, hv, -, hc, -⟩ := hcert j hj
      exact ⟨v, hv, hc⟩
    · rintro ⟨v, hv, -⟩
      have hk : j ∈ d.verifiers.keys := AMap.get_isSome.1 (by rw [hv]; rfl)
      rw [hd, (dRun_evolves E (N.D i) _).keys, (honest_new h hi hh).2.2.1, startVers_keys,
        (honest_new h hi hh).1.oldNodes, pubs_length] at hk
      exact List.mem_range.1 hk
  have hthr : N.t ≤ N.n := by
    by_cases ht : N.t = 0
    · omega
    · have := hT i hi
      rwa [(newDistKeyHandler_ok (h.start i hi hh)).newT, if_pos ht] at this
  refine ⟨?_, ?_⟩
  · have := C36_certified E _ _ _ (N.D i) (h.start i hi hh) (honest_new h hi hh).1.new
      (by rw [(honest_new h hi hh).1.oldNodes]; exact h.nodup) (s.map (HMsg.call E N z i)) ord
    refine this.2 (fun j hj => ?_)
    rw [show (dRun E (N.D i) (s.map (HMsg.call E N z i))).c.oldNodes = N.pubs E from
      hI.static.oldNodes, pubs_length] at hj
    obtain ⟨v, hv, -, h3, h4⟩ := hcert j hj
    exact ⟨v, hv, h3, h4⟩
  · intro key
    rw [C33_dist_key_share_iff E _ _ _ _ _ (N.D i) (h.start i hi hh) _ ord _ _ hQ, (honest_new h hi hh).1.nidx]
    constructor
    · rintro ⟨-, -, D, len, hD, rfl⟩
      have hDp : ∀ j < N.n, D j = N.plain j i := by
        intro j hj
        obtain ⟨v, hv, hdeal, -⟩ := hcert j hj
        obtain ⟨v', hv', hdeal', -⟩ := hD j (Finset.mem_range.2 hj)
        rw [hv] at hv'
        cases hv'
        rw [hdeal] at hdeal'
        exact (Option.some.inj hdeal').symm
      refine ⟨len, fun j hj => ?_, ?_⟩
      · obtain ⟨_, -, -, hl⟩ := hD j (Finset.mem_range.2 hj)
        rw [hDp j hj] at hl
        exact hl
      · congr 1
        · refine List.map_congr_left (fun c _ => Finset.sum_congr rfl (fun j hj => ?_))
          rw [hDp j (Finset.mem_range.1 hj)]
          rfl
        · congr 1
          refine Finset.sum_congr rfl (fun j hj => ?_)
          rw [hDp j (Finset.mem_range.1 hj)]
          rfl
    · rintro ⟨len, hlen, rfl⟩
      refine ⟨by rw [Finset.card_range]; exact hthr, ⟨i, Finset.mem_range.2 hi⟩,
        fun j => N.plain j i, len, ?_, rfl⟩
      intro j hj
      obtain ⟨v, hv, hdeal, -⟩ := hcert j (Finset.mem_range.1 hj)
      exact ⟨v, hv, hdeal, hlen j (Finset.mem_range.1 hj)⟩

/-- C33, the honest run of a fresh DKG. Any number of participants with distinct keys, any accepted
threshold, any secret polynomials; at each participant the deals and responses meant for it arrive
in any order, timeouts may be set at any time. Then every call of every participant succeeds and
produces exactly the messages that the others receive; when everything has arrived, every
participant is certified and gets, for every iteration order, the same commitments, those of the
sum of the secret polynomials, and as share the value of that sum at its index. -/
theorem C33_honest_run (E : DkgEnv F G) (hS : E.suite.Lawful) (hP : E.prims.Lawful)
    (hO : PrimsOk E) (N : Net F G) (h : N.Honest E)
    (hC : ∀ j < N.n, ∀ dl ∈ (N.D j).dealer.deals, E.codec.dec (E.codec.enc dl) = some dl) (z : F)
    (T : Nat) (hT : T = if N.t ≠ 0 then N.t else minimumT N.n)
    (i : Nat) (hi : i < N.n) (s : List HMsg) (hs : Schedule N.n i s) :
    (∀ pre m post, s = pre ++ m :: post →
      m.Succeeds E N z i (dRun E (N.D i) (pre.map (HMsg.call E N z i)))) ∧
    (Complete N.n i s → ∀ ord,
      (dRun E (N.D i) (s.map (HMsg.call E N z i))).certified ord = true ∧
      (dRun E (N.D i) (s.map (HMsg.call E N z i))).distKeyShare E.suite ord = .ok
        { commits := (sumPoly N T).map (fun c => c • E.suite.base)
          share := ⟨i, polyVal (sumPoly N T) ((i + 1 : Nat) : F)⟩
          privatePoly := netPoly N T i }) := by
  obtain ⟨hsucc, hfin⟩ := C127_fair_run E hS hP hO N _ h.fair hC z i hi trivial s hs
  refine ⟨hsucc, fun hcomp ord => ?_⟩
  obtain ⟨hcert, hkey⟩ := hfin hcomp ord
  refine ⟨hcert, ?_⟩
  have hdl : ∀ j < N.n, (N.D j).newT = T ∧ (N.D j).dealer.secretPoly = ⟨netPoly N T j⟩ ∧
      (N.D j).dealer.secretCommits = (netPoly N T j).map (fun c => c • E.suite.base) ∧
      (netPoly N T j).length = T ∧ T ≤ N.n ∧ 2 ≤ T := by
    intro j hj
    obtain ⟨-, hdl, -⟩ := honest_new h.fair hj trivial
    have hnt : (N.D j).newT = T := by
      rw [(newDistKeyHandler_ok (h.start j hj)).newT, hT, pubs_length]
    rw [hnt] at hdl
    obtain ⟨hv, hdr, -, -, -, -, -, h6, h7, -⟩ := newDealer_ok hdl
    unfold validT at hv
    simp only [Bool.and_eq_true, decide_eq_true_eq, pubs_length] at hv
    refine ⟨hnt, h6, h7, ?_, hv.1.2, hv.1.1⟩
    unfold netPoly
    rw [List.length_cons, List.length_take]
    omega
  rw [hkey]
  refine ⟨T, fun j hj => ?_, ?_⟩
  · obtain ⟨-, -, h7, hl, -⟩ := hdl j hj
    rw [h7, List.length_map, hl]
  · have hlen : ∀ j < N.n, (netPoly N T j).length = T := fun j hj => (hdl j hj).2.2.2.1
    congr 1
    · unfold sumPoly
      rw [List.map_map]
      refine List.map_congr_left (fun c hc => ?_)
      simp only [Function.comp_apply]
      rw [hS.base_lin.sum]
      refine Finset.sum_congr rfl (fun j hj => ?_)
      show _ = (N.D j).dealer.secretCommits.getD c 0
      obtain ⟨-, -, h7, hl, -⟩ := hdl j (Finset.mem_range.1 hj)
      have hc' : c < (netPoly N T j).length := by rw [hl]; exact List.mem_range.1 hc
      rw [h7, List.getD_eq_getElem?_getD, List.getD_eq_getElem?_getD, List.getElem?_map,
        List.getElem?_eq_getElem hc']
      rfl
    · congr 1
      rw [sumPoly_val N T hlen]
      refine Finset.sum_congr rfl (fun j hj => ?_)
      show _ = ((N.D j).dealer.secretPoly.eval i).v
      rw [(hdl j (Finset.mem_range.1 hj)).2.1, C01_eval_genuine]
    · rw [(hdl i hi).2.1]

/-- C33: any selection of at least `T` key shares of an honest run recovers the sum of the secrets,
whose public key is the distributed key. -/
theorem C33_honest_recover (q : Nat) [CharP F q] (S : Suite F G) (ord : MapOrder) (N : Net F G)
    (T : Nat) (hT : 0 < T) (hn : N.n ≤ q)
    (sel : List Nat) (hsel : ∀ i ∈ sel, i < N.n) (hcount : T ≤ sel.toFinset.card) :
    Poly.recoverSecret ord (sel.map (fun i => some ⟨i, polyVal (sumPoly N T) ((i + 1 : Nat) : F)⟩)) T =
      .ok (∑ j ∈ Finset.range N.n, N.sec j) ∧
    ((sumPoly N T).map (fun c => c • S.base)).head? =
      some ((∑ j ∈ Finset.range N.n, N.sec j) • S.base) := by
  obtain ⟨T', rfl⟩ : ∃ T', T = T' + 1 := ⟨T - 1, by omega⟩
  have hcons : sumPoly N (T' + 1) = (∑ j ∈ Finset.range N.n, N.sec j) :: (sumPoly N (T' + 1)).tail := by
    unfold sumPoly
    rw [List.range_succ_eq_map, List.map_cons, List.tail_cons]
    rfl
  have hind : indices (sel.map (fun i => some
      (⟨i, polyVal (sumPoly N (T' + 1)) ((i + 1 : Nat) : F)⟩ : Share F))) = sel.toFinset := by
    rw [show (fun i : Nat => some (⟨i, polyVal (sumPoly N (T' + 1)) ((i + 1 : Nat) : F)⟩ : Share F)) =
      fun i => some ((fun i => (⟨i, polyVal (sumPoly N (T' + 1)) ((i + 1 : Nat) : F)⟩ : Share F)) i)
      from rfl, indices_map_some]
    simp
  refine ⟨?_, by rw [hcons]; rfl⟩
  apply C01_recover_secret q ord _ (sumPoly N (T' + 1)).tail
  · rw [← hcons]
    intro s hs
    obtain ⟨i, hi, he⟩ := List.mem_map.1 hs
    cases he
    rfl
  · intro i hi
    rw [hind, List.mem_toFinset] at hi
    exact lt_of_lt_of_le (hsel i hi) hn
  · rw [← hcons]; unfold sumPoly; simp
  · rw [hind]; exact hcount

/-! ## Examples -/

end

namespace DkgPExample

open Kyber.Toy

section

variable [SMul F G]

/-- `net` is an honest group. -/
theorem net_honest : (net envD).Honest envD where
  nodup := by decide +kernel
  x := by unfold Usable; decide +kernel
  k i j := by
    unfold Usable net
    simp only
    split <;> decide +kernel
  rnd i j := by
    unfold Usable net
    simp only
    split <;> decide +kernel
  vk i j := by unfold Usable net; simp only; decide +kernel
  start i hi := by
    have : i = 0 ∨ i = 1 ∨ i = 2 := by
      have : i < 3 := hi
      omega
    rcases this with rfl | rfl | rfl <;> rfl

/-- A complete history of participant 1: responses before the deals they are about, a timeout in
the middle. -/
def sched : List HMsg :=
  [.resp 0 2, .resp 1 0, .deal 2, .deals, .timeout, .resp 2 0, .deal 0, .resp 1 2]

theorem sched_ok : Schedule 3 1 sched ∧ Complete 3 1 sched := by
  refine ⟨⟨?_, ?_⟩, ?_⟩
  · intro m hm
    simp only [sched, List.mem_cons, List.not_mem_nil, or_false] at hm
    rcases hm with rfl | rfl | rfl | rfl | rfl | rfl | rfl | rfl <;> simp [HMsg.Wanted]
  · intro m hm
    by_cases hin : m ∈ sched
    · simp only [sched, List.mem_cons, List.not_mem_nil, or_false] at hin
      rcases hin with rfl | rfl | rfl | rfl | rfl | rfl | rfl | rfl <;> revert hm <;> decide
    · rw [List.count_eq_zero_of_not_mem hin]; omega
  · intro m hw hm
    cases m with
    | deals => decide
    | deal j =>
      obtain ⟨h1, h2⟩ := hw
      have : j = 0 ∨ j = 2 := by omega
      rcases this with rfl | rfl <;> decide
    | resp j l =>
      obtain ⟨h1, h2, h3, h4⟩ := hw
      have : j = 0 ∨ j = 1 ∨ j = 2 := by omega
      have : l = 0 ∨ l = 2 := by omega
      rcases ‹j = 0 ∨ j = 1 ∨ j = 2› with rfl | rfl | rfl <;>
        rcases ‹l = 0 ∨ l = 2› with rfl | rfl <;> first | decide | exact absurd rfl h4
    | timeout => exact absurd rfl hm

/-- The hypotheses of `C33_honest_run` hold; the key is that of the secret 7 + 1 + 4. -/
example : envD.suite.Lawful ∧ envD.prims.Lawful ∧ (∀ d, envD.codec.dec (envD.codec.enc d) = some d) ∧
    PrimsOk envD ∧ (net envD).Honest envD ∧ Schedule 3 1 sched ∧ Complete 3 1 sched ∧
    (dRun envD ((net envD).D 1) (sched.map (HMsg.call envD (net envD) 1 1))).distKeyShare
      envD.suite MapOrder.rev =
      .ok ⟨[(7 + 1 + 4) * 2, (5 + 6 + 9) * 2], ⟨1, (7 + 1 + 4) + (5 + 6 + 9) * 2⟩, [1, 6]⟩ := by
  refine ⟨lawful, prims_lawful, codecP_lawful, ⟨?_, ?_⟩, net_honest, sched_ok.1, sched_ok.2, ?_⟩
  · intro ikm info; rfl
  · intro key nonce m aad; rfl
  · decide +kernel

/-- `C33_honest_recover` on the shares of participants 2 and 0. -/
example : Poly.recoverSecret MapOrder.rev ([2, 0].map (fun i => some
    (⟨i, polyVal (sumPoly (net envD) 2) ((i + 1 : Nat) : ZMod 11)⟩ : Share (ZMod 11)))) 2 =
      .ok (∑ j ∈ Finset.range 3, (net envD).sec j) :=
  (C33_honest_recover 11 suite MapOrder.rev (net envD) 2 (by decide) (by decide) [2, 0]
    (by intro i hi; have : i = 2 ∨ i = 0 := by simpa using hi
        show i < 3; omega) (by decide)).1

/-- A deal signed by participant 2, whose key is 2, for participant `i`; `sid` is put into it. -/
def forged (sid : Bytes) (coeffs : List (ZMod 11)) (i : Nat) : DkgP.Deal (ZMod 11) :=
  let dl : Dealer (ZMod 11) (ZMod 11) :=
    { long := 2, pubb := 4, secret := 0, secretCommits := [], secretPoly := ⟨[]⟩,
      verifiers := [6, 10, 4], hkdfContext := context envDI.suite 4 [6, 10, 4], t := 2, sessionId := [],
      deals := List.replicate 3 ⟨sid, (⟨coeffs⟩ : PriPoly (ZMod 11)).eval i, 2,
        coeffs.map (fun c => c • envDI.suite.base)⟩,
      aggregator := newEmptyAggregator [] }
  match dl.encryptedDeal envDI.toEnv i 3 2 with
  | .ok e => ⟨2, e, Schnorr.sign envDI.suite 5 2 (envDI.encDist 2 e)⟩
  | _ => ⟨0, ⟨0, [], [], []⟩, []⟩

/-- The session id of a deal with the given polynomial. -/
def sidOf (coeffs : List (ZMod 11)) : Bytes :=
  VssP.sessionId envDI.suite 4 [6, 10, 4] (coeffs.map (fun c => c • envDI.suite.base)) 2

/-- Any response by participant `l`, who has key `x`, for the deal of `j`. -/
def approval (sid : Bytes) (x : ZMod 11) (j l : Nat) : DkgP.Response :=
  let r : VssP.Response := ⟨sid, l, true, []⟩
  ⟨j, { r with signature := Schnorr.sign envDI.suite 5 x (r.hash envDI.suite) }⟩

/-- Participant 2 deals the polynomial `[4, 9]` to participant 0 and `[1, 1]` to participant 1, each
deal with the session id of the other. -/
def eq0 : List (DCall (ZMod 11) (ZMod 11)) :=
  [.deals ((net envDI).dh 0) ((net envDI).k 0) ((net envDI).rnd 0) 5 1,
   .deal ((net envDI).dealMsg envDI 1 0) 5 1,
   .deal (forged (sidOf [1, 1]) [4, 9] 0) 5 1,
   .response ((net envDI).respMsg envDI 0 1) 1,
   .response ((net envDI).respMsg envDI 0 2) 1,
   .response ((net envDI).respMsg envDI 1 2) 1,
   .response (approval (sidOf [1, 1]) 5 2 1) 1]
@[inherit_doc eq0] def eq1 : List (DCall (ZMod 11) (ZMod 11)) :=
  [.deals ((net envDI).dh 1) ((net envDI).k 1) ((net envDI).rnd 1) 5 1,
   .deal ((net envDI).dealMsg envDI 0 1) 5 1,
   .deal (forged (sidOf [4, 9]) [1, 1] 1) 5 1,
   .response ((net envDI).respMsg envDI 1 0) 1,
   .response ((net envDI).respMsg envDI 1 2) 1,
   .response ((net envDI).respMsg envDI 0 2) 1,
   .response (approval (sidOf [4, 9]) 3 2 0) 1]

/-- The two participants exchange exactly what they answered, they are certified without a
timeout, and hold different keys. -/
theorem equivocation :
    ((dRun envDI ((net envDI).D 0) (eq0.take 2)).processDeal envDI (forged (sidOf [1, 1]) [4, 9] 0) 5 1).2 =
      .ok (approval (sidOf [4, 9]) 3 2 0) ∧
    ((dRun envDI ((net envDI).D 1) (eq1.take 2)).processDeal envDI (forged (sidOf [4, 9]) [1, 1] 1) 5 1).2 =
      .ok (approval (sidOf [1, 1]) 5 2 1) ∧
    (dRun envDI ((net envDI).D 0) eq0).certified MapOrder.id = true ∧
    (dRun envDI ((net envDI).D 1) eq1).certified MapOrder.id = true ∧
    (dRun envDI ((net envDI).D 0) eq0).distKeyShare envDI.suite MapOrder.id =
      .ok ⟨[(7 + 1 + 4) * 2, (5 + 6 + 9) * 2], ⟨0, (7 + 1 + 4) + (5 + 6 + 9)⟩, [7, 5]⟩ ∧
    (dRun envDI ((net envDI).D 1) eq1).distKeyShare envDI.suite MapOrder.id =
      .ok ⟨[(7 + 1 + 1) * 2, (5 + 6 + 1) * 2], ⟨1, (7 + 1 + 1) + (5 + 6 + 1) * 2⟩, [1, 6]⟩ := by
  decide +kernel

end

/-- `C127_fair_run`: everyone is honest. -/
example := C127_fair_run envD lawful prims_lawful ⟨fun _ _ => rfl, fun _ _ _ _ => rfl⟩ (net envD) (fun _ => True)
  net_honest.fair (fun _ _ dl _ => codecP_lawful dl) 1 1 (by decide) trivial sched sched_ok.1

end DkgPExample

section

variable [SMul F G]

set_option maxRecDepth 100000 in
open DkgPExample Kyber.Toy in
/-- C33 does not hold against a malicious dealer: participant 2 of 3 gives the two others deals of
different polynomials; both end up certified, with all responses and without timeout, and with
different public keys. -/
theorem C33_violated_equivocation : ¬ C33_statement := by
  intro h
  obtain ⟨-, -, hc0, hc1, h0, h1⟩ := equivocation
  have s0 : newDistKeyGenerator envDI.suite 3 [6, 10, 4] 2 7 [5] = .ok ((net envDI).D 0) := rfl
  have s1 : newDistKeyGenerator envDI.suite 5 [6, 10, 4] 2 1 [6] = .ok ((net envDI).D 1) := rfl
  have q0 := (C36_certified envDI _ _ _ _ s0 rfl (by decide +kernel) eq0 MapOrder.id).1 hc0
  have q1 := (C36_certified envDI _ _ _ _ s1 rfl (by decide +kernel) eq1 MapOrder.id).1 hc1
  have key : ∀ (d0 : Dkg (ZMod 11) (ZMod 11)) cs secret draws x,
      newDistKeyGenerator envDI.suite x [6, 10, 4] 2 secret draws = .ok d0 → d0.newPresent = true →
      d0.c.oldNodes = [6, 10, 4] →
      (∀ i < (dRun envDI d0 cs).c.oldNodes.length, ∃ v, (dRun envDI d0 cs).verifiers.get i = some v ∧
        v.aggregator.dealCertified = true ∧
        missing v.aggregator.responses v.aggregator.verifiers.length = ∅) →
      ∀ i, Qualified (dRun envDI d0 cs) i ↔ i < 3 := by
    intro d0 cs secret draws x hs hp ho hq i
    have hlen : (dRun envDI d0 cs).c.oldNodes.length = 3 := by
      rw [(dRun_evolves envDI d0 cs).c, ho]; rfl
    rw [hlen] at hq
    constructor
    · rintro ⟨v, hv, -⟩
      have hk : i ∈ (dRun envDI d0 cs).verifiers.keys := AMap.get_isSome.1 (by rw [hv]; rfl)
      rw [(dRun_evolves envDI d0 cs).keys] at hk
      rcases started_keys hs with h | h <;> rw [h] at hk
      · cases hk
      · rw [ho] at hk; exact List.mem_range.1 hk
    · intro hi
      obtain ⟨v, hv, hc, -⟩ := hq i hi
      exact ⟨v, hv, hc⟩
  have := (h (ZMod 11) (ZMod 11) _ _ _ _ envDI envDI_lawful (by decide) (fun _ _ h => h)
    3 5 [6, 10, 4] (by decide +kernel) 2 7 1 [5] [6] _ _ s0 s1 eq0 eq1 MapOrder.id MapOrder.id _ _
    (fun i => (key _ _ _ _ _ s0 rfl rfl q0 i).trans (key _ _ _ _ _ s1 rfl rfl q1 i).symm) h0 h1).1
  revert this
  decide +kernel

end

end Kyber.Props
