/-
Property C123 for the Pedersen DKG: participants that finish hold the same key.
-/
import Verif.Lemmas.DkgPedersenAgree
import Verif.Props.DkgPedersenHonest
import Verif.Spec.Agreement

set_option linter.unusedSectionVars false

namespace Kyber.Props

open Kyber Kyber.Poly Kyber.Spec Kyber.VssP Kyber.DkgP

variable {F G : Type} [Field F] [AddCommGroup G] [DecidableEq G]

/-- C123 as one would want it for the Pedersen DKG: fewer than `t` participants are faulty, the others
follow the protocol over a reliable, totally ordered broadcast channel; any two of them that
obtain a key obtain the same one. -/
def C123_statement_pedersen : Prop :=
  ∀ (F G : Type) (_ : Field F) (_ : AddCommGroup G) (_ : DecidableEq G) (_ : SMul F G)
    (E : DkgEnv F G) (_ : E.suite.Lawful) (_ : E.prims.Lawful)
    (_ : ∀ b b', E.suite.hash b = E.suite.hash b' → b = b')
    (_ : ∀ d, E.codec.dec (E.codec.enc d) = some d) (_ : PrimsOk E)
    (ps : List G) (_ : ps.Nodup) (t : Nat) (H : Finset Nat) (_ : t ≤ H.card) (_ : ps.length < H.card + t)
    (x s : Nat → F) (draws : Nat → List F) (D : Nat → Dkg F G)
    (_ : ∀ i ∈ H, newDistKeyGenerator E.suite (x i) ps t (s i) (draws i) = .ok (D i) ∧ (D i).nidx = i)
    (B : List (PublicP F G)) (cs : Nat → List (DCall F G)) (_ : BroadcastP E H D B cs)
    (i : Nat) (_ : i ∈ H) (j : Nat) (_ : j ∈ H) (ord ord' : MapOrder) (k k' : DistKeyShare F G),
    (dRun E (D i) (cs i)).distKeyShare E.suite ord = .ok k →
    (dRun E (D j) (cs j)).distKeyShare E.suite ord' = .ok k' → k.commits = k'.commits

namespace AgreementPExample

open Kyber.Toy

theorem netDI_honest : (net envDI).Honest envDI where
  nodup := by decide +kernel
  x := by unfold Usable; decide +kernel
  k i j := by
    unfold Usable net
    simp only
    split <;> decide +kernel
  rnd i j := by
    unfold Usable net
    simp only
    split <;> decide +kernel
  vk i j := by unfold Usable net; simp only; decide +kernel
  start i hi := by
    have : i = 0 ∨ i = 1 ∨ i = 2 := by
      have : i < 3 := hi
      omega
    rcases this with rfl | rfl | rfl <;> rfl

theorem primsOkDI : PrimsOk envDI := ⟨fun _ _ => rfl, fun _ _ _ _ => rfl⟩

/-- What everybody sees when dealer 2 keeps its deal from participant 0: participant 0 has nothing to
say about it, everything else is as it should be. -/
def board : List HMsg := [.resp 0 1, .resp 0 2, .resp 1 0, .resp 1 2, .resp 2 1, .timeout]

def toCall (i : Nat) : HMsg → DCall (ZMod 11) (ZMod 11) := HMsg.call envDI (net envDI) 1 i

def publicB : List (PublicP (ZMod 11) (ZMod 11)) := board.filterMap (fun m => heardP (toCall 0 m))

/-- What participants 0 and 1 do. -/
def doing : Nat → List HMsg
  | 0 => [.deals, .deal 1] ++ board
  | _ => [.deals, .deal 0, .deal 2] ++ board

def calls (i : Nat) : List (DCall (ZMod 11) (ZMod 11)) := (doing i).map (toCall i)

/-- Whether everything said is on the board. -/
def published : Dkg (ZMod 11) (ZMod 11) → List (DCall (ZMod 11) (ZMod 11)) → Bool
  | _, [] => true
  | d, c :: cs => (match saidP envDI d c with
    | some m => decide (m ∈ publicB)
    | none => true) && published (dStep envDI d c) cs

theorem published_spec (d : Dkg (ZMod 11) (ZMod 11)) (cs : List (DCall (ZMod 11) (ZMod 11)))
    (h : published d cs = true) : PublishesP envDI publicB d cs := by
  induction cs generalizing d with
  | nil => trivial
  | cons c cs ih =>
    unfold published at h
    rw [Bool.and_eq_true] at h
    refine ⟨fun m hm => ?_, ih _ h.2⟩
    have := h.1
    rw [hm] at this
    exact of_decide_eq_true this

theorem published0 : published ((net envDI).D 0) (calls 0) = true := by decide +kernel
theorem published1 : published ((net envDI).D 1) (calls 1) = true := by decide +kernel

/-- The qualified dealers and the public keys. -/
theorem keys : (dRun envDI ((net envDI).D 0) (calls 0)).qual MapOrder.id = [0, 1] ∧
    (dRun envDI ((net envDI).D 1) (calls 1)).qual MapOrder.id = [0, 1, 2] ∧
    (dRun envDI ((net envDI).D 0) (calls 0)).distKeyShare envDI.suite MapOrder.id =
      .ok ⟨[5, 0], ⟨0, 8⟩, [7, 5]⟩ ∧
    (dRun envDI ((net envDI).D 1) (calls 1)).distKeyShare envDI.suite MapOrder.id =
      .ok ⟨[2, 7], ⟨1, 8⟩, [1, 6]⟩ := by
  decide +kernel

theorem schedule_deals (i : Nat) : Schedule 3 i [.deals] where
  wanted m hm := by
    rw [List.mem_singleton] at hm; subst hm; trivial
  once m _ := by
    by_cases h : m = HMsg.deals
    · subst h; simp
    · simp [List.count_cons, Ne.symm h]

/-- The deals that participant `i` makes. -/
theorem dealt (i : Nat) (hi : i < 3) : ∃ out, (((net envDI).D i).deals envDI ((net envDI).dh i) ((net envDI).k i)
    ((net envDI).rnd i) ((net envDI).vk i i) 1).2 = .ok out ∧ ∀ j, out.get j =
      if j < 3 ∧ j ≠ i then some ((net envDI).dealMsg envDI i j) else none :=
  (C33_honest_run envDI envDI_lawful prims_lawful primsOkDI (net envDI) netDI_honest
    (fun _ _ dl _ => codecP_lawful dl) 1 2 rfl i hi [.deals] (schedule_deals i)).1 [] .deals [] rfl

theorem broadcast : BroadcastP envDI {0, 1} (net envDI).D publicB calls where
  heard i hi := by
    simp only [Finset.mem_insert, Finset.mem_singleton] at hi
    rcases hi with rfl | rfl <;> rfl
  said i hi := by
    simp only [Finset.mem_insert, Finset.mem_singleton] at hi
    rcases hi with rfl | rfl
    · exact published_spec _ _ published0
    · exact published_spec _ _ published1
  dealt i hi := by
    simp only [Finset.mem_insert, Finset.mem_singleton] at hi
    rcases hi with rfl | rfl
    · obtain ⟨out, h1, h2⟩ := dealt 0 (by decide)
      refine ⟨[], _, _, _, _, _, _, out, rfl, h1, fun j hj hne => ⟨_, 5, 1, by
        simp only [Finset.mem_insert, Finset.mem_singleton] at hj
        obtain rfl : j = 1 := by omega
        rw [h2, if_pos (by decide)], ?_⟩⟩
      simp only [Finset.mem_insert, Finset.mem_singleton] at hj
      obtain rfl : j = 1 := by omega
      exact List.mem_map.2 ⟨.deal 0, by decide, rfl⟩
    · obtain ⟨out, h1, h2⟩ := dealt 1 (by decide)
      refine ⟨[], _, _, _, _, _, _, out, rfl, h1, fun j hj hne => ⟨_, 5, 1, by
        simp only [Finset.mem_insert, Finset.mem_singleton] at hj
        obtain rfl : j = 0 := by omega
        rw [h2, if_pos (by decide)], ?_⟩⟩
      simp only [Finset.mem_insert, Finset.mem_singleton] at hj
      obtain rfl : j = 0 := by omega
      exact List.mem_map.2 ⟨.deal 1, by decide, rfl⟩

end AgreementPExample

open AgreementPExample Toy in
/-- C123 does not hold for the Pedersen DKG: of three participants with threshold 2, dealer 2 keeps its
deal from participant 0 and is otherwise correct. Both correct participants obtain a key, with
different sets of qualified dealers and different keys. -/
theorem C123_violated_pedersen : ¬ C123_statement_pedersen := by
  intro h
  have := h (ZMod 11) (ZMod 11) _ _ _ _ envDI envDI_lawful prims_lawful (fun _ _ h => h) codecP_lawful primsOkDI
    [6, 10, 4] (by decide +kernel) 2 {0, 1} (by decide) (by decide) (net envDI).x (net envDI).sec
    (net envDI).draws (net envDI).D
    (by
      intro i hi
      simp only [Finset.mem_insert, Finset.mem_singleton] at hi
      rcases hi with rfl | rfl
      · exact ⟨rfl, by decide +kernel⟩
      · exact ⟨rfl, by decide +kernel⟩)
    publicB calls broadcast 0 (by simp) 1 (by simp) MapOrder.id MapOrder.id _ _ keys.2.2.1 keys.2.2.2
  exact absurd this (by decide +kernel)

section

variable [SMul F G]

/-- C123, when two participants agree about a dealer, as `C123_rabin_partial`. Before the deal they hear
nothing about dealer `j`, afterwards the same in the same order. The answers that they gave
themselves are among the messages `B1`, nothing else is signed in their name for this session, and
their own complaints are not justified before; the timeout may come at any place. Then the dealer is
qualified for both or for none of them. Missing: dealers that give a deal to only one of the two, or deals
that do not fit (`C123_violated_pedersen`). -/
theorem C123_pedersen_partial (E : DkgEnv F G) (xa xb : F) (ps : List G) (hnd : ps.Nodup) (t ta : Nat)
    (sa sb : F) (fa fb : List F) (a b : Dkg F G)
    (ha : newDistKeyGenerator E.suite xa ps t sa fa = .ok a)
    (hb : newDistKeyGenerator E.suite xb ps ta sb fb = .ok b)
    (j : Nat) (hja : j ≠ a.nidx) (hjb : j ≠ b.nidx)
    (prea posta preb postb : List (DCall F G)) (dda ddb : DkgP.Deal G) (ka ka' kb kb' : F)
    (ra rb : DkgP.Response) (hda : dda.index = j) (hdb : ddb.index = j)
    (hqa : ∀ c ∈ prea, aboutP j c = none) (hqb : ∀ c ∈ preb, aboutP j c = none)
    (hra : ((dRun E a prea).processDeal E dda ka ka').2 = .ok ra)
    (hrb : ((dRun E b preb).processDeal E ddb kb kb').2 = .ok rb)
    (va vb : Verifier F G) (qa qb : VssP.Deal F G)
    (hva : (dRun E a (prea ++ [.deal dda ka ka'])).verifiers.get j = some va)
    (hvb : (dRun E b (preb ++ [.deal ddb kb kb'])).verifiers.get j = some vb)
    (hvqa : va.aggregator.deal = some qa) (hvqb : vb.aggregator.deal = some qb)
    (ht : qa.t = qb.t) (hsid : qa.sessionId = qb.sessionId)
    (B1 B2 : List (About (VssP.Justification F G)))
    (hBa : posta.filterMap (aboutP j) = B1 ++ B2) (hBb : postb.filterMap (aboutP j) = B1 ++ B2)
    (hina : .response ra.response ∈ B1 ∧ ra.response.sessionId = qa.sessionId ∧
      Authentic E.suite ps ra.response)
    (hinb : .response rb.response ∈ B1 ∧ rb.response.sessionId = qb.sessionId ∧
      Authentic E.suite ps rb.response)
    (hua : ∀ r, .response r ∈ B1 → r.index = a.nidx → (qa.sessionId = [] ∨ r.sessionId = qa.sessionId) →
      Authentic E.suite ps r → r.status = ra.response.status)
    (hub : ∀ r, .response r ∈ B1 → r.index = b.nidx → (qa.sessionId = [] ∨ r.sessionId = qa.sessionId) →
      Authentic E.suite ps r → r.status = rb.response.status)
    (hju : ∀ ju, .justification ju ∈ B1 → (ju.index = a.nidx → ra.response.status = true) ∧
      (ju.index = b.nidx → rb.response.status = true)) :
    Qualified (dRun E a (prea ++ .deal dda ka ka' :: posta)) j ↔
      Qualified (dRun E b (preb ++ .deal ddb kb kb' :: postb)) j := by
  have fresh : ∀ {x : F} {T : Nat} {s : F} {f : List F} {d : Dkg F G},
      newDistKeyGenerator E.suite x ps T s f = .ok d → ∀ (pre : List (DCall F G)) (dd : DkgP.Deal G) (k k' : F)
      (r : DkgP.Response) (v : Verifier F G) (q : VssP.Deal F G), dd.index = j → j ≠ d.nidx →
      (∀ c ∈ pre, aboutP j c = none) →
      ((dRun E d pre).processDeal E dd k k').2 = .ok r →
      (dRun E d (pre ++ [.deal dd k k'])).verifiers.get j = some v → v.aggregator.deal = some q →
      r.response.index = d.nidx ∧ v.aggregator.t = q.t ∧ v.aggregator.sid = q.sessionId ∧
        v.aggregator.badDealer = false ∧ v.aggregator.timeout = false ∧ v.aggregator.verifiers = ps ∧
        ∀ l, statusAt v.aggregator l = if l = d.nidx then some r.response.status
          else if l = j then some true else none := by
    intro x T s f d h0 pre dd k k' r v q hdd hne hq hr hv hvq
    have f0 := newDistKeyGenerator_fresh h0
    have hev := dRun_evolves E d pre
    have hrun : dRun E d (pre ++ [.deal dd k k']) = ((dRun E d pre).processDeal E dd k k').1 := by
      simp [dRun, dStep]
    subst hdd
    obtain ⟨p, hp⟩ : ∃ p, ps[dd.index]? = some p := by
      unfold Dkg.processDeal at hr
      split at hr
      · cases hr
      rw [hev.isResharing, f0.re, hev.c, f0.nodes] at hr
      simp only [Bool.false_eq_true, if_false] at hr
      split at hr
      · cases hr
      · rename_i p hp; exact ⟨p, hp⟩
    obtain ⟨w, hw, hcase⟩ := run_quiet E f0.re (by rw [f0.nodes]; exact hnd) (by rw [f0.oidx]; exact hne)
      (f0.vers hnd _ p hp) pre hq
    obtain ⟨g1, w', q', g2, g3, g4, g5, g6, g7, g8, g9⟩ := firstAnswers (E := E) (d := dRun E d pre)
      (by rw [hev.isResharing]; exact f0.re) hnd (by rw [hev.c]; exact f0.nodes) f0.key hp hne hw hcase hr
    rw [hrun, g2] at hv
    cases hv
    rw [g3] at hvq
    cases hvq
    exact ⟨g1, g4, g5, g6, g7, g8, g9⟩
  obtain ⟨ia, a4, a5, a6, a6', a7, a8⟩ := fresh ha prea dda ka ka' ra va qa hda hja hqa hra hva hvqa
  obtain ⟨ib, b4, b5, b6, b6', b7, b8⟩ := fresh hb preb ddb kb kb' rb vb qb hdb hjb hqb hrb hvb hvqb
  have hrest : ∀ (d : Dkg F G) (pre post : List (DCall F G)) (dd : DkgP.Deal G) (k k' : F),
      dRun E d (pre ++ .deal dd k k' :: post) = dRun E (dRun E d (pre ++ [.deal dd k k'])) post := by
    intro d pre post dd k k'
    simp [dRun]
  rw [hrest a prea, hrest b preb]
  have fa' := newDistKeyGenerator_fresh ha
  have fb' := newDistKeyGenerator_fresh hb
  have eva := dRun_evolves E a (prea ++ [.deal dda ka ka'])
  have evb := dRun_evolves E b (preb ++ [.deal ddb kb kb'])
  obtain ⟨wa, wa1, wa2⟩ := run_about E (by rw [eva.isResharing]; exact fa'.re)
    (by rw [eva.c, fa'.nodes]; exact hnd) (by rw [eva.oidx, fa'.oidx]; exact hja) hva (by rw [hvqa]; rfl) posta
  obtain ⟨wb, wb1, wb2⟩ := run_about E (by rw [evb.isResharing]; exact fb'.re)
    (by rw [evb.c, fb'.nodes]; exact hnd) (by rw [evb.oidx, fb'.oidx]; exact hjb) hvb (by rw [hvqb]; rfl) postb
  let c : Nat → Option Bool := fun l => if l = a.nidx then some ra.response.status else
    if l = b.nidx then some rb.response.status else none
  have hsame : a.nidx = b.nidx → rb.response.status = ra.response.status := fun h =>
    hua rb.response hinb.1 (ib.trans h.symm) (Or.inr (hinb.2.1.trans hsid.symm)) hinb.2.2
  have hL : Like ps c va.aggregator vb.aggregator := by
    refine ⟨a7, b7, by rw [a4, b4, ht], by rw [a5, b5, hsid], by rw [a6, b6], by rw [a6', b6'],
      by rw [hvqa]; rfl, by rw [hvqb]; rfl, fun l hl => ?_, fun l s hl => ?_⟩
    · have h1 : l ≠ a.nidx := by rintro rfl; simp [c] at hl
      have h2 : l ≠ b.nidx := by
        rintro rfl
        simp only [c] at hl
        rw [if_neg h1, if_pos trivial] at hl
        cases hl
      rw [a8, b8, if_neg h1, if_neg h2]
    · rw [a8, b8]
      simp only [c] at hl
      by_cases h1 : l = a.nidx
      · rw [if_pos h1] at hl ⊢
        refine ⟨Or.inr hl, ?_⟩
        by_cases h2 : l = b.nidx
        · rw [if_pos h2, hsame (h1.symm.trans h2)]; exact Or.inr hl
        · rw [if_neg h2, if_neg (fun h => hja (h.symm.trans h1))]; exact Or.inl rfl
      · rw [if_neg h1] at hl ⊢
        by_cases h2 : l = b.nidx
        · rw [if_pos h2] at hl ⊢
          rw [if_neg (fun h => hjb (h.symm.trans h2))]
          exact ⟨Or.inl rfl, Or.inr hl⟩
        · rw [if_neg h2] at hl; cases hl
  have h1 := hL.run (S := E.suite) B1
    (by
      intro r s hr hc hs hauth
      unfold Fits at hs
      rw [a5] at hs
      simp only [c] at hc
      split at hc
      · rename_i hi; cases hc; exact hua r hr hi hs hauth
      · split at hc
        · rename_i hi; cases hc; exact hub r hr hi hs hauth
        · cases hc)
    (by
      intro ju hm hc
      simp only [c] at hc
      split at hc
      · rename_i hi; rw [(hju ju hm).1 hi] at hc; cases hc
      · split at hc
        · rename_i hi; rw [(hju ju hm).2 hi] at hc; cases hc
        · cases hc)
  have h2 := h1.close (by
    intro l s hc
    have hl : l = a.nidx ∨ l = b.nidx := by
      simp only [c] at hc
      split at hc
      · left; assumption
      · split at hc
        · right; assumption
        · cases hc
    constructor
    · refine statusAt_isSome a7 (by rw [hvqa]; rfl) B1 (Or.inr ?_)
      rcases hl with rfl | rfl
      · exact ⟨_, hina.1, ia, Or.inr (hina.2.1.trans a5.symm), hina.2.2⟩
      · exact ⟨_, hinb.1, ib, Or.inr ((hinb.2.1.trans hsid.symm).trans a5.symm), hinb.2.2⟩
    · refine statusAt_isSome b7 (by rw [hvqb]; rfl) B1 (Or.inr ?_)
      rcases hl with rfl | rfl
      · exact ⟨_, hina.1, ia, Or.inr ((hina.2.1.trans hsid).trans b5.symm), hina.2.2⟩
      · exact ⟨_, hinb.1, ib, Or.inr (hinb.2.1.trans b5.symm), hinb.2.2⟩)
  have h3 := (h2.run_closed (S := E.suite) B2).certified
  rw [← List.foldl_append, ← List.foldl_append, ← hBa, ← wa2, hBa, ← hBb, ← wb2] at h3
  constructor
  · rintro ⟨v, k1, k2⟩
    rw [wa1] at k1; cases k1
    exact ⟨wb, wb1, by rw [← h3]; exact k2⟩
  · rintro ⟨v, k1, k2⟩
    rw [wb1] at k1; cases k1
    exact ⟨wa, wa1, by rw [h3]; exact k2⟩

end

namespace AgreementPExample

open Kyber.Toy

/-- A complaint in the name of participant 0 that it did not sign. -/
def forged : DkgP.Response := ⟨2, ⟨((net envDI).D 2).dealer.sessionId, 0, false, [1, 2]⟩⟩

/-- What comes after the deal of 2: a forged complaint, a timeout, the answers, one of them twice.
Participant 0 processes messages about others in between. -/
def after (i : Nat) : List (DCall (ZMod 11) (ZMod 11)) :=
  [.response forged 1, .timeout, .response ((net envDI).respMsg envDI 2 1) 1] ++
    (if i = 0 then [.deal ((net envDI).dealMsg envDI 1 0) 5 1, .response ((net envDI).respMsg envDI 1 2) 1] else []) ++
    [.response ((net envDI).respMsg envDI 2 0) 1, .response ((net envDI).respMsg envDI 2 1) 1]

def before : List (About (VssP.Justification (ZMod 11) (ZMod 11))) :=
  [.response forged.response, .timeout, .response ((net envDI).respMsg envDI 2 1).response,
    .response ((net envDI).respMsg envDI 2 0).response]

def since : List (About (VssP.Justification (ZMod 11) (ZMod 11))) :=
  [.response ((net envDI).respMsg envDI 2 1).response]

/-- The deal of 2 that a participant holds. -/
def held2 (d : Dkg (ZMod 11) (ZMod 11)) : Option (VssP.Deal (ZMod 11) (ZMod 11)) :=
  (d.verifiers.get 2).bind (fun v => v.aggregator.deal)

theorem holds2 {d : Dkg (ZMod 11) (ZMod 11)} {q : VssP.Deal (ZMod 11) (ZMod 11)} (h : held2 d = some q) :
    ∃ v, d.verifiers.get 2 = some v ∧ v.aggregator.deal = some q := by
  unfold held2 at h
  simpa only [Option.bind_eq_some_iff] using h

/-- What participant 2 deals to participant `i`. -/
def dealt2 (i : Nat) : VssP.Deal (ZMod 11) (ZMod 11) :=
  match ((net envDI).D 2).dealer.deals[i]? with
  | some d => d
  | none => ⟨[], ⟨0, 0⟩, 0, []⟩

theorem own_names : ∀ r, .response r ∈ before → Authentic envDI.suite [6, 10, 4] r → r.status = true := by
  intro r hr hauth
  simp only [before, List.mem_cons, List.not_mem_nil, or_false, About.response.injEq, reduceCtorEq, false_or] at hr
  rcases hr with rfl | rfl | rfl
  · obtain ⟨P, h1, h2⟩ := hauth
    exfalso
    have h1' : (6 : ZMod 11) = P := Option.some.inj h1
    subst h1'
    revert h2
    decide +kernel
  · rfl
  · rfl

end AgreementPExample

open AgreementPExample Toy in
example : Qualified (dRun envDI ((net envDI).D 0) ([] ++ .deal ((net envDI).dealMsg envDI 2 0) 5 1 :: after 0)) 2 ↔
    Qualified (dRun envDI ((net envDI).D 1) ([] ++ .deal ((net envDI).dealMsg envDI 2 1) 5 1 :: after 1)) 2 := by
  obtain ⟨va, a1, a2⟩ := holds2 (d := dRun envDI ((net envDI).D 0)
    ([] ++ [.deal ((net envDI).dealMsg envDI 2 0) 5 1])) (q := dealt2 0) (by decide +kernel)
  obtain ⟨vb, b1, b2⟩ := holds2 (d := dRun envDI ((net envDI).D 1)
    ([] ++ [.deal ((net envDI).dealMsg envDI 2 1) 5 1])) (q := dealt2 1) (by decide +kernel)
  exact C123_pedersen_partial envDI 3 5 [6, 10, 4] (by decide +kernel) 2 2 7 1 [5] [6] _ _ rfl rfl 2
    (by decide +kernel) (by decide +kernel) [] (after 0) [] (after 1) _ _ 5 1 5 1
    ((net envDI).respMsg envDI 2 0) ((net envDI).respMsg envDI 2 1) rfl rfl (by simp) (by simp) (by decide +kernel)
    (by decide +kernel) va vb (dealt2 0) (dealt2 1) a1 b1 a2 b2 (by decide +kernel) (by decide +kernel)
    before since rfl rfl ⟨by simp [before], by decide +kernel, 6, rfl, by decide +kernel⟩
    ⟨by simp [before], by decide +kernel, 10, rfl, by decide +kernel⟩
    (fun r hr _ _ h => own_names r hr h) (fun r hr _ _ h => own_names r hr h)
    (fun _ h => by simp [before] at h)

open AgreementPExample Toy in
example : 2 ∈ (dRun envDI ((net envDI).D 0) (.deal ((net envDI).dealMsg envDI 2 0) 5 1 :: after 0)).qual MapOrder.id ∧
    2 ∈ (dRun envDI ((net envDI).D 1) (.deal ((net envDI).dealMsg envDI 2 1) 5 1 :: after 1)).qual MapOrder.id := by
  decide +kernel

end Kyber.Props
