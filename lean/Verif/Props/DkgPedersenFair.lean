/-
C127: a Pedersen DKG (`src/share/dkg/pedersen/dkg.rs`) with dealers who cheat without being noticed.
-/
import Verif.Spec.Ok
import Verif.Props.DkgPedersenHonest
import Verif.Props.AgreementPedersen
import Verif.Lemmas.Orders

set_option linter.unusedSectionVars false

namespace Kyber.Spec

open Kyber.Poly Kyber.VssP Kyber.DkgP

variable {F G : Type} [Field F] [AddCommGroup G] [SMul F G] [DecidableEq G]

/-- Participant `j` runs the protocol with its own polynomial but sends the commitments `C`, with the
session identifier that belongs to them. -/
def Net.cheat (E : DkgEnv F G) (N : Net F G) (j : Nat) (C : List G) : Net F G :=
  let sid := VssP.sessionId E.suite (N.x j • E.suite.base) (N.pubs E) C (N.D j).newT
  let dl : Dealer F G := { (N.D j).dealer with
    secretCommits := C, sessionId := sid,
    deals := (List.range N.n).map (fun i => ⟨sid, (N.D j).dealer.secretPoly.eval i, (N.D j).newT, C⟩) }
  { N with D := fun l => if l = j then { N.D j with dealer := dl } else N.D l }

end Kyber.Spec

namespace Kyber.Props

open Kyber Kyber.Poly Kyber.Spec Kyber.VssP Kyber.DkgP

variable {F G : Type} [Field F] [AddCommGroup G] [DecidableEq G]

section

variable [SMul F G]

/-- C127: sending other commitments is only noticed by a participant whose share is not on them. -/
theorem C127_cheat (E : DkgEnv F G) (hS : E.suite.Lawful) (N : Net F G) (h : N.Honest E) (H : Nat → Prop) (j : Nat)
    (hj : j < N.n) (hh : ¬ H j) (C : List G)
    (hc : ∀ i < N.n, H i → (⟨none, C⟩ : PubPoly G).check E.suite.base ((N.D j).dealer.secretPoly.eval i) = .ok true) :
    (N.cheat E j C).Fair E H := by
  have hcv := convincing hS.base_lin h.fair hj
  refine ⟨h.nodup, h.x, h.k, h.rnd, h.vk, ?_, ?_⟩
  · intro i hi hi'
    show newDistKeyGenerator E.suite (N.x i) (N.pubs E) N.t (N.sec i) (N.draws i) = .ok (if i = j then _ else N.D i)
    rw [if_neg (by rintro rfl; exact hh hi')]
    exact h.start i hi
  · intro l hl hl'
    by_cases e : l = j
    · subst e
      refine ⟨?_, ?_, ?_, ?_, ?_, ?_, ?_⟩ <;> simp only [Net.cheat, if_pos]
      · exact hcv.long
      · exact hcv.verifiers
      · exact hcv.ctx
      · rfl
      · exact hcv.valid
      · exact hc
    · have hcl := convincing hS.base_lin h.fair hl
      refine ⟨?_, ?_, ?_, ?_, ?_, ?_, ?_⟩ <;> simp only [Net.cheat, if_neg e]
      · exact hcl.long
      · exact hcl.verifiers
      · exact hcl.ctx
      · exact hcl.sid
      · exact hcl.deals
      · exact hcl.valid
      · exact fun i hi _ => hcl.check i hi trivial


open DkgPExample AgreementPExample Kyber.Toy in
/-- Dealer 2 of three commits to one coefficient more: the commitment `0` at the end. -/
example : ((net envDI).cheat envDI 2 [8, 7, 0]).Fair envDI (· ≠ 2) :=
  C127_cheat envDI envDI_lawful (net envDI) netDI_honest (· ≠ 2) 2 (by decide) (fun h => h rfl) _
    (fun i hi hne => by
      have hi : i < 3 := hi
      obtain rfl | rfl : i = 0 ∨ i = 1 := by omega
      · decide +kernel
      · decide +kernel)

end

section

variable [DistribSMul F G]

/-- C127: the share of every participant that followed the protocol lies on the commitments of the key. -/
theorem C127_share_checks (E : DkgEnv F G) (hS : E.suite.Lawful) (hP : E.prims.Lawful)
    (hO : PrimsOk E) (N : Net F G) (H : Nat → Prop) (h : N.Fair E H)
    (hC : ∀ j < N.n, ∀ dl ∈ (N.D j).dealer.deals, E.codec.dec (E.codec.enc dl) = some dl) (z : F)
    (i : Nat) (hi : i < N.n) (hh : H i) (s : List HMsg) (hs : Schedule N.n i s) (hcomp : Complete N.n i s)
    (ord : MapOrder) (key : DistKeyShare F G)
    (hk : (dRun E (N.D i) (s.map (HMsg.call E N z i))).distKeyShare E.suite ord = .ok key) :
    key.share.i = i ∧ key.commits ≠ [] ∧
    (⟨none, key.commits⟩ : PubPoly G).check E.suite.base key.share = .ok true := by
  obtain ⟨len, hlen, rfl⟩ := (((C127_fair_run E hS hP hO N H h hC z i hi hh s hs).2 hcomp ord).2 key).1 hk
  have hlen0 : len ≠ 0 := by
    intro e
    have hch := (convincing hS.base_lin h hi).check i hi hh
    have := hlen i hi
    rw [e, List.length_eq_zero_iff] at this
    rw [this] at hch
    cases hch
  have hev : ∀ (C : List G), C ≠ [] → ∀ (sh : Share F), (⟨none, C⟩ : PubPoly G).check E.suite.base sh = .ok true ↔
      pointVal C ((sh.i + 1 : Nat) : F) = sh.v • E.suite.base := by
    intro C hC sh
    unfold PubPoly.check PubPoly.eval
    rw [if_neg (by simpa using hC), Res.bind_ok, Res.ok.injEq, decide_eq_true_eq, pointVal_eq_foldr]
    rfl
  have hne : (List.range len).map (fun c => ∑ j ∈ Finset.range N.n, (N.D j).dealer.secretCommits.getD c 0) ≠ [] := by
    simpa using hlen0
  refine ⟨rfl, hne, ?_⟩
  rw [hev _ hne]
  simp only
  rw [pointVal_sum _ (fun j => (N.D j).dealer.secretCommits) len (fun j hj => hlen j (Finset.mem_range.1 hj)),
    hS.base_lin.sum]
  refine Finset.sum_congr rfl (fun j hj => ?_)
  have hj := Finset.mem_range.1 hj
  have hch := (convincing hS.base_lin h hj).check i hi hh
  rw [hev _ (by intro e; have := hlen j hj; rw [e] at this; exact hlen0 this.symm)] at hch
  exact hch


open DkgPExample AgreementPExample Kyber.Toy in
/-- Everyone is honest here. -/
example : ∃ key, (dRun envDI ((net envDI).D 1) (sched.map (HMsg.call envDI (net envDI) 1 1))).distKeyShare
      envDI.suite MapOrder.rev = .ok key ∧
    (⟨none, key.commits⟩ : PubPoly (ZMod 11)).check envDI.suite.base key.share = .ok true := by
  obtain ⟨key, h⟩ := Res.exists_ok (r := (dRun envDI ((net envDI).D 1)
    (sched.map (HMsg.call envDI (net envDI) 1 1))).distKeyShare envDI.suite MapOrder.rev) (by decide +kernel)
  exact ⟨key, h, (C127_share_checks envDI envDI_lawful prims_lawful primsOkDI (net envDI) (fun _ => True)
    netDI_honest.fair (fun _ _ dl _ => codecP_lawful dl) 1 1 (by decide) trivial sched sched_ok.1 sched_ok.2
    MapOrder.rev key h).2.2⟩

end

section

variable [Module F G]

/-- C127, the intended property: participants that are certified with the approval of everybody get a key. -/
def C127_statement : Prop :=
  ∀ (F G : Type) (_ : Field F) (_ : AddCommGroup G) (_ : Module F G) (_ : DecidableEq G)
    (E : DkgEnv F G) (_ : E.suite.Lawful) (_ : E.prims.Lawful) (_ : PrimsOk E)
    (_ : ∀ d, E.codec.dec (E.codec.enc d) = some d) (_ : Function.Injective E.suite.hash)
    (N : Net F G) (H : Nat → Prop) (_ : N.Fair E H) (z : F) (i : Nat) (_ : i < N.n) (_ : H i)
    (s : List HMsg) (_ : Schedule N.n i s) (_ : Complete N.n i s) (ord : MapOrder),
    ∃ key, (dRun E (N.D i) (s.map (HMsg.call E N z i))).distKeyShare E.suite ord = .ok key

/-- C127: in a group of prime order, whatever the other dealers did, the shares of the participants that
followed the protocol determine the key: as many of them as there are commitments recover one secret,
whose public key is the first commitment. -/
theorem C127_recover (q : Nat) [CharP F q] (E : DkgEnv F G) (hS : E.suite.Lawful) (hP : E.prims.Lawful)
    (hO : PrimsOk E) (N : Net F G) (H : Nat → Prop) (h : N.Fair E H)
    (hC : ∀ j < N.n, ∀ dl ∈ (N.D j).dealer.deals, E.codec.dec (E.codec.enc dl) = some dl) (hn : N.n ≤ q) (z : F)
    (msgs : Nat → List HMsg) (hm : ∀ i < N.n, H i → Schedule N.n i (msgs i) ∧ Complete N.n i (msgs i))
    (ords : Nat → MapOrder) (keys : Nat → DistKeyShare F G)
    (hk : ∀ i < N.n, H i →
      (dRun E (N.D i) ((msgs i).map (HMsg.call E N z i))).distKeyShare E.suite (ords i) = .ok (keys i)) :
    ∃ commits : List G, (∀ i < N.n, H i → (keys i).commits = commits) ∧
      ∀ (ord : MapOrder) (sel : List Nat), (∀ i ∈ sel, i < N.n ∧ H i) → commits.length ≤ sel.toFinset.card →
        ∃ s, recoverSecret ord (sel.map (fun i => some (keys i).share)) commits.length = .ok s ∧
          s • E.suite.base = commits.getD 0 0 := by
  have hkey : ∀ i < N.n, H i → _ := fun i hi hh =>
    (((C127_fair_run E hS hP hO N H h hC z i hi hh (msgs i) (hm i hi hh).1).2 (hm i hi hh).2 (ords i)).2 (keys i)).1
      (hk i hi hh)
  refine ⟨(List.range (N.D 0).dealer.secretCommits.length).map
    (fun c => ∑ j ∈ Finset.range N.n, (N.D j).dealer.secretCommits.getD c 0), ?_, ?_⟩
  · intro i hi hh
    obtain ⟨len, hlen, e⟩ := hkey i hi hh
    rw [e, hlen 0 (by omega)]
  · intro ord sel hsel hcount
    have hall : ∀ i ∈ sel, (keys i).commits = (List.range (N.D 0).dealer.secretCommits.length).map
        (fun c => ∑ j ∈ Finset.range N.n, (N.D j).dealer.secretCommits.getD c 0) ∧ (keys i).share.i = i ∧
        (keys i).share.v • E.suite.base = pointVal (keys i).commits (((keys i).share.i + 1 : Nat) : F) := by
      intro i hi
      obtain ⟨h1, h2⟩ := hsel i hi
      obtain ⟨len, hlen, e⟩ := hkey i h1 h2
      obtain ⟨e1, e2, e3⟩ := C127_share_checks E hS hP hO N H h hC z i h1 h2 (msgs i) (hm i h1 h2).1 (hm i h1 h2).2
        (ords i) (keys i) (hk i h1 h2)
      refine ⟨by rw [e, hlen 0 (by omega)], e1, ?_⟩
      unfold PubPoly.check PubPoly.eval at e3
      rw [if_neg (by simpa using e2), Res.bind_ok, Res.ok.injEq, decide_eq_true_eq] at e3
      rw [pointVal_eq_foldr]
      exact e3.symm
    have hidx : (sel.map keys).map (fun k => k.share.i) = sel := by
      rw [List.map_map]
      conv_rhs => rw [← List.map_id sel]
      exact List.map_congr_left (fun i hi => (hall i hi).2.1)
    have := C33_recover (F := F) q ord E.suite _ _ le_rfl (sel.map keys)
      (by intro k hk'; obtain ⟨i, hi, rfl⟩ := List.mem_map.1 hk'; exact (hall i hi).1)
      (by intro k hk'; obtain ⟨i, hi, rfl⟩ := List.mem_map.1 hk'; exact (hall i hi).2.2)
      (by intro k hk'
          obtain ⟨i, hi, rfl⟩ := List.mem_map.1 hk'
          rw [(hall i hi).2.1]
          exact lt_of_lt_of_le (hsel i hi).1 hn)
      (by rw [hidx]; exact hcount)
    rwa [List.map_map] at this

open DkgPExample AgreementPExample Kyber.Toy in
/-- `C127_recover`: the shares of participants 2 and 0 recover a secret whose public key everyone has. -/
example : ∃ (keys : Nat → DistKeyShare (ZMod 11) (ZMod 11)) (s : ZMod 11),
    (∀ i < 3, (dRun envDI ((net envDI).D i) ((hOrder 3 i).map (HMsg.call envDI (net envDI) 1 i))).distKeyShare
      envDI.suite MapOrder.rev = .ok (keys i)) ∧
    recoverSecret MapOrder.id [some (keys 2).share, some (keys 0).share] (keys 1).commits.length = .ok s ∧
    s • envDI.suite.base = (keys 1).commits.getD 0 0 := by
  have hex : ∀ i < 3, ∃ k, (dRun envDI ((net envDI).D i)
      ((hOrder 3 i).map (HMsg.call envDI (net envDI) 1 i))).distKeyShare envDI.suite MapOrder.rev = .ok k ∧
        k.commits.length = 2 := by
    intro i hi
    have := C33_honest_run envDI envDI_lawful prims_lawful primsOkDI (net envDI) netDI_honest
      (fun _ _ dl _ => codecP_lawful dl) 1 2 (by decide) i hi _ (hOrder_ok 3 i).1
    exact ⟨_, (this.2 (hOrder_ok 3 i).2 MapOrder.rev).2, by simp [sumPoly]⟩
  have : Nonempty (DistKeyShare (ZMod 11) (ZMod 11)) := ⟨(hex 0 (by decide)).choose⟩
  choose! keys hk hl using hex
  obtain ⟨commits, h1, h2⟩ := C127_recover 11 envDI envDI_lawful prims_lawful primsOkDI (net envDI) (fun _ => True)
    netDI_honest.fair (fun _ _ dl _ => codecP_lawful dl) (by decide) 1 (hOrder 3) (fun i _ _ => hOrder_ok 3 i)
    (fun _ => MapOrder.rev) keys (fun i hi _ => hk i hi)
  have e := h1 1 (by decide) trivial
  obtain ⟨s, hs⟩ := h2 MapOrder.id [2, 0] (by decide) (by rw [← e, hl 1 (by decide)]; decide)
  rw [← e] at hs
  exact ⟨keys, s, hk, hs.1, hs.2⟩

/-- C127: a dealer who appends a zero commitment satisfies everybody, and nobody gets a key. -/
theorem C127_padding (E : DkgEnv F G) (hS : E.suite.Lawful) (hP : E.prims.Lawful) (hO : PrimsOk E) (N : Net F G)
    (h : N.Honest E) (j : Nat) (hj : j < N.n)
    (hC : ∀ l < N.n, ∀ dl ∈ ((N.cheat E j ((N.D j).dealer.secretCommits ++ [0])).D l).dealer.deals,
      E.codec.dec (E.codec.enc dl) = some dl) (z : F)
    (i : Nat) (hi : i < N.n) (hij : i ≠ j) (s : List HMsg) (hs : Schedule N.n i s) (hcomp : Complete N.n i s)
    (ord : MapOrder) :
    let N' := N.cheat E j ((N.D j).dealer.secretCommits ++ [0])
    N'.Fair E (· ≠ j) ∧
    (∀ pre m post, s = pre ++ m :: post → m.Succeeds E N' z i (dRun E (N'.D i) (pre.map (HMsg.call E N' z i)))) ∧
    (dRun E (N'.D i) (s.map (HMsg.call E N' z i))).certified ord = true ∧
    ∀ key, (dRun E (N'.D i) (s.map (HMsg.call E N' z i))).distKeyShare E.suite ord ≠ .ok key := by
  intro N'
  have hfair : N'.Fair E (· ≠ j) := by
    refine C127_cheat E hS N h _ j hj (by simp) _ (fun i hi _ => ?_)
    have hch := (convincing hS.base_lin h.fair hj).check i hi trivial
    have hne : (N.D j).dealer.secretCommits ≠ [] := by
      intro e
      rw [e] at hch
      cases hch
    unfold PubPoly.check PubPoly.eval at hch ⊢
    rw [if_neg (by simpa using hne), Res.bind_ok, Res.ok.injEq, decide_eq_true_eq] at hch
    rw [if_neg (by simp), Res.bind_ok, Res.ok.injEq, decide_eq_true_eq, ← hch]
    simp only [List.foldr_append, List.foldr_cons, List.foldr_nil, smul_zero, add_zero]
  obtain ⟨h1, h2⟩ := C127_fair_run E hS hP hO N' _ hfair hC z i hi hij s hs
  obtain ⟨h3, h4⟩ := h2 hcomp ord
  refine ⟨hfair, h1, h3, fun key hk => ?_⟩
  obtain ⟨len, hlen, -⟩ := (h4 key).1 hk
  have e1 := hlen i hi
  have e2 := hlen j hj
  simp only [N', Net.cheat, if_neg hij] at e1
  simp only [N', Net.cheat, if_pos, List.length_append, List.length_singleton] at e2
  have hT : ∀ l < N.n, (N.D l).dealer.secretCommits.length = (N.D l).newT := by
    intro l hl
    obtain ⟨-, hdl, -⟩ := honest_new h.fair hl trivial
    obtain ⟨hv, hdr, -, -, -, -, -, -, h7, -⟩ := newDealer_ok hdl
    rw [h7, List.length_map, List.length_cons, List.length_take]
    unfold validT at hv
    simp only [Bool.and_eq_true, decide_eq_true_eq] at hv
    omega
  have hTT : (N.D i).newT = (N.D j).newT := by
    rw [(newDistKeyHandler_ok (h.start i hi)).newT, (newDistKeyHandler_ok (h.start j hj)).newT]
  rw [hT i hi] at e1
  rw [hT j hj] at e2
  omega


open DkgPExample AgreementPExample Kyber.Toy in
example := C127_padding envDI envDI_lawful prims_lawful primsOkDI (net envDI) netDI_honest
  2 (by decide) (fun _ _ dl _ => codecP_lawful dl) 1 1 (by decide) (by decide) sched sched_ok.1 sched_ok.2 MapOrder.id

end

open DkgPExample AgreementPExample Kyber.Toy in
/-- C127 is violated by the dealer who appends a zero commitment. -/
theorem C127_violated : ¬ C127_statement := by
  intro hst
  obtain ⟨h1, -, -, h4⟩ := C127_padding envDI envDI_lawful prims_lawful primsOkDI (net envDI) netDI_honest
    2 (by decide) (fun _ _ dl _ => codecP_lawful dl) 1 1 (by decide) (by decide) sched sched_ok.1 sched_ok.2 MapOrder.id
  obtain ⟨key, hk⟩ := hst (ZMod 11) (ZMod 11) _ _ _ _ envDI envDI_lawful prims_lawful primsOkDI codecP_lawful
    (fun _ _ h => h) _ _ h1 1 1 (by decide) (by decide) sched sched_ok.1 sched_ok.2 MapOrder.id
  exact h4 key hk

end Kyber.Props
