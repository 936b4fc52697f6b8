/-
Property C123: participants that finish a distributed key generation hold the same key.
-/
import Verif.Lemmas.DkgRabinAgree
import Verif.Props.DkgRabinEvidence
import Verif.Spec.Agreement

set_option linter.unusedSectionVars false

namespace Kyber.Props

open Kyber Kyber.Poly Kyber.Spec Kyber.VssR Kyber.DkgR

variable {F G : Type} [Field F] [AddCommGroup G] [DecidableEq G]

/-- C123 as one would want it for the Rabin DKG: fewer than `t` participants are faulty, the others
follow the protocol over a reliable, totally ordered broadcast channel; any two of them that
obtain a key obtain the same one. -/
def C123_statement : Prop :=
  ∀ (F G : Type) (_ : Field F) (_ : AddCommGroup G) (_ : DecidableEq G) (_ : DistribSMul F G)
    (E : VssR.Env F G) (_ : E.suite.Lawful) (_ : E.prims.Lawful) (_ : ∀ b, Lin F (E.pickFrom b))
    (_ : ∀ b b', E.suite.hash b = E.suite.hash b' → b = b')
    (_ : ∀ d, E.codec.dec (E.codec.enc d) = some d) (_ : PrimsOkR E)
    (ps : List G) (_ : ps.Nodup) (t : Nat) (H : Finset Nat) (_ : t ≤ H.card) (_ : ps.length < H.card + t)
    (x s : Nat → F) (fD gD : Nat → List F) (D : Nat → Dkg F G)
    (_ : ∀ i ∈ H, newDistKeyGenerator E (x i) ps t (s i) (fD i) (gD i) = .ok (D i) ∧ (D i).index = i)
    (B : List (PublicR F G)) (cs : Nat → List (QCall F G)) (_ : BroadcastR E H D B cs)
    (i : Nat) (_ : i ∈ H) (j : Nat) (_ : j ∈ H) (ord ord' : MapOrder) (k k' : DistKeyShare F G),
    (qRun E (D i) (cs i)).distKeyShare ord = .ok k →
    (qRun E (D j) (cs j)).distKeyShare ord' = .ok k' → k.commits = k'.commits

namespace AgreementExample

open Kyber.Toy DkgRExample

/-- What everybody sees when dealer 2 keeps its deal from participant 0: participant 0 has nothing to
say about it, everything else is as it should be. -/
def board : List RMsg :=
  [.resp 0 1, .resp 0 2, .resp 1 0, .resp 1 2, .resp 2 1, .timeout, .commits 0, .commits 1, .commits 2]

def toCall (i : Nat) : RMsg → QCall (ZMod 11) (ZMod 11) := RMsg.call envRI (netR envRI) 1 MapOrder.id i

def publicB : List (PublicR (ZMod 11) (ZMod 11)) := board.filterMap (fun m => heardR (toCall 0 m))

/-- What participants 0 and 1 do. -/
def doing : Nat → List RMsg
  | 0 => [.deals, .deal 1] ++ board.take 6 ++ [.ownCommits] ++ board.drop 6
  | _ => [.deals, .deal 0, .deal 2] ++ board.take 6 ++ [.ownCommits] ++ board.drop 6

def calls (i : Nat) : List (QCall (ZMod 11) (ZMod 11)) := (doing i).map (toCall i)

/-- Whether everything said is on the board. -/
def published : Dkg (ZMod 11) (ZMod 11) → List (QCall (ZMod 11) (ZMod 11)) → Bool
  | _, [] => true
  | d, c :: cs => (match saidR envRI d c with
    | some m => decide (m ∈ publicB)
    | none => true) && published (qStep envRI d c) cs

theorem published_spec (d : Dkg (ZMod 11) (ZMod 11)) (cs : List (QCall (ZMod 11) (ZMod 11)))
    (h : published d cs = true) : PublishesR envRI publicB d cs := by
  induction cs generalizing d with
  | nil => trivial
  | cons c cs ih =>
    unfold published at h
    rw [Bool.and_eq_true] at h
    refine ⟨fun m hm => ?_, ih _ h.2⟩
    have := h.1
    rw [hm] at this
    exact of_decide_eq_true this

theorem published0 : published ((netR envRI).D 0) (calls 0) = true := by decide +kernel
theorem published1 : published ((netR envRI).D 1) (calls 1) = true := by decide +kernel

/-- The qualified dealers and the public keys. -/
theorem keys : (qRun envRI ((netR envRI).D 0) (calls 0)).qual MapOrder.id = [0, 1] ∧
    (qRun envRI ((netR envRI).D 1) (calls 1)).qual MapOrder.id = [1, 0, 2] ∧
    (qRun envRI ((netR envRI).D 0) (calls 0)).finished MapOrder.id = true ∧
    (qRun envRI ((netR envRI).D 1) (calls 1)).finished MapOrder.id = true ∧
    (qRun envRI ((netR envRI).D 0) (calls 0)).distKeyShare MapOrder.id = .ok ⟨[5, 0], ⟨0, 8⟩⟩ ∧
    (qRun envRI ((netR envRI).D 1) (calls 1)).distKeyShare MapOrder.id = .ok ⟨[2, 7], ⟨1, 8⟩⟩ := by
  decide +kernel

theorem schedule_deals (i : Nat) : RSchedule 3 i [.deals] where
  wanted m hm := by
    rw [List.mem_singleton] at hm; subst hm; trivial
  once m _ := by
    by_cases h : m = RMsg.deals
    · subst h; simp
    · simp [List.count_cons, Ne.symm h]
  causal pre m post h m' hm := by
    have : m ∈ [RMsg.deals] := by rw [h]; simp
    rw [List.mem_singleton] at this
    subst this
    exact hm.elim

/-- The deals that participant `i` makes. -/
theorem dealt (i : Nat) (hi : i < 3) : ∃ out, (((netR envRI).D i).deals envRI ((netR envRI).dh i) ((netR envRI).k i)
    ((netR envRI).vk i i)).2 = .ok out ∧ ∀ j, out.get j =
      if j < 3 ∧ j ≠ i then some ((netR envRI).dealMsg envRI i j) else none :=
  (C39_honest_run envRI envRI_lawful prims_lawful
    (fun _ => ⟨fun a b => add_smul a b _, fun a b => mul_smul a b _⟩) primsOkRI (netR envRI) netRI_honest
    (fun _ _ dl _ => codecR_lawful dl) 1 MapOrder.id i hi [.deals] (schedule_deals i)).1 [] .deals [] rfl

theorem broadcast : BroadcastR envRI {0, 1} (netR envRI).D publicB calls where
  heard i hi := by
    simp only [Finset.mem_insert, Finset.mem_singleton] at hi
    rcases hi with rfl | rfl <;> rfl
  said i hi := by
    simp only [Finset.mem_insert, Finset.mem_singleton] at hi
    rcases hi with rfl | rfl
    · exact published_spec _ _ published0
    · exact published_spec _ _ published1
  dealt i hi := by
    simp only [Finset.mem_insert, Finset.mem_singleton] at hi
    rcases hi with rfl | rfl
    · obtain ⟨out, h1, h2⟩ := dealt 0 (by decide)
      refine ⟨[], _, _, _, _, out, rfl, h1, fun j hj hne => ⟨_, 5, by
        simp only [Finset.mem_insert, Finset.mem_singleton] at hj
        obtain rfl : j = 1 := by omega
        rw [h2, if_pos (by decide)], ?_⟩⟩
      simp only [Finset.mem_insert, Finset.mem_singleton] at hj
      obtain rfl : j = 1 := by omega
      exact List.mem_map.2 ⟨.deal 0, by decide, rfl⟩
    · obtain ⟨out, h1, h2⟩ := dealt 1 (by decide)
      refine ⟨[], _, _, _, _, out, rfl, h1, fun j hj hne => ⟨_, 5, by
        simp only [Finset.mem_insert, Finset.mem_singleton] at hj
        obtain rfl : j = 0 := by omega
        rw [h2, if_pos (by decide)], ?_⟩⟩
      simp only [Finset.mem_insert, Finset.mem_singleton] at hj
      obtain rfl : j = 0 := by omega
      exact List.mem_map.2 ⟨.deal 1, by decide, rfl⟩

end AgreementExample

open AgreementExample DkgRExample Toy in
/-- C123 does not hold for the Rabin DKG: of three participants with threshold 2, dealer 2 keeps its
deal from participant 0 and is otherwise correct. Both correct participants finish, with different
sets of qualified dealers and different keys. -/
theorem C123_violated : ¬ C123_statement := by
  intro h
  have := h (ZMod 11) (ZMod 11) _ _ _ _ envRI envRI_lawful prims_lawful
    (fun _ => ⟨fun a b => add_smul a b _, fun a b => mul_smul a b _⟩) (fun _ _ h => h) codecR_lawful primsOkRI
    [6, 10, 4] (by decide +kernel) 2 {0, 1} (by decide) (by decide) (netR envRI).x (netR envRI).sec
    (netR envRI).fD (netR envRI).gD (netR envRI).D
    (by
      intro i hi
      simp only [Finset.mem_insert, Finset.mem_singleton] at hi
      rcases hi with rfl | rfl
      · exact ⟨rfl, by decide +kernel⟩
      · exact ⟨rfl, by decide +kernel⟩)
    publicB calls broadcast 0 (by simp) 1 (by simp) MapOrder.id MapOrder.id _ _ keys.2.2.2.2.1 keys.2.2.2.2.2
  exact absurd this (by decide +kernel)

section

variable [SMul F G]

/-- C123, when two participants agree about a dealer. Participants `a` and `b` have accepted a deal of the
same dealer `j`, with the same threshold and session id (`qa`, `qb`), and hear afterwards the same about
this dealer, in the same order: any answers, also contradicting ones of others, complaints,
justifications, timeouts. Before the first timeout they hear the answers that they gave
themselves, nothing else is signed in their name for this session, and no justification of their own
complaints comes before. Then the dealer is qualified for both or for none of them. Missing:
dealers that give a deal to only one of the two, or deals that do not fit (`C123_violated`). -/
theorem C123_rabin_partial (E : VssR.Env F G) (xa xb : F) (ps : List G) (t ta : Nat) (sa sb : F)
    (fa ga fb gb : List F) (a b : Dkg F G)
    (ha : newDistKeyGenerator E xa ps t sa fa ga = .ok a)
    (hb : newDistKeyGenerator E xb ps ta sb fb gb = .ok b)
    (j : Nat) (hja : j ≠ a.index) (hjb : j ≠ b.index)
    (prea posta preb postb : List (QCall F G)) (dda ddb : DkgR.Deal G) (ka kb : F) (ra rb : DkgR.Response)
    (hda : dda.index = j) (hdb : ddb.index = j)
    (hra : ((qRun E a prea).processDeal E dda ka).2 = .ok ra)
    (hrb : ((qRun E b preb).processDeal E ddb kb).2 = .ok rb)
    (qa qb : VssR.Deal F G)
    (hqa : HoldsDeal (qRun E a (prea ++ [.deal dda ka])) j qa)
    (hqb : HoldsDeal (qRun E b (preb ++ [.deal ddb kb])) j qb)
    (ht : qa.t = qb.t) (hsid : qa.sessionId = qb.sessionId)
    (B1 B2 : List (About (VssR.Justification F G)))
    (hBa : posta.filterMap (aboutR j) = B1 ++ B2) (hBb : postb.filterMap (aboutR j) = B1 ++ B2)
    (hT : .timeout ∉ B1)
    (hina : .response ra.response ∈ B1 ∧ ra.response.sessionId = qa.sessionId ∧
      Authentic E.suite ps ra.response)
    (hinb : .response rb.response ∈ B1 ∧ rb.response.sessionId = qb.sessionId ∧
      Authentic E.suite ps rb.response)
    (hua : ∀ r, .response r ∈ B1 → r.index = a.index → r.sessionId = qa.sessionId →
      Authentic E.suite ps r → r.status = ra.response.status)
    (hub : ∀ r, .response r ∈ B1 → r.index = b.index → r.sessionId = qa.sessionId →
      Authentic E.suite ps r → r.status = rb.response.status)
    (hju : ∀ ju, .justification ju ∈ B1 → (ju.index = a.index → ra.response.status = true) ∧
      (ju.index = b.index → rb.response.status = true)) :
    QualifiedR (qRun E a (prea ++ .deal dda ka :: posta)) j ↔
      QualifiedR (qRun E b (preb ++ .deal ddb kb :: postb)) j := by
  have fresh : ∀ {x : F} {T : Nat} {s : F} {f g : List F} {d : Dkg F G},
      newDistKeyGenerator E x ps T s f g = .ok d → ∀ (pre : List (QCall F G)) (dd : DkgR.Deal G) (k : F)
      (r : DkgR.Response) (q : VssR.Deal F G), dd.index = j → j ≠ d.index →
      ((qRun E d pre).processDeal E dd k).2 = .ok r → HoldsDeal (qRun E d (pre ++ [.deal dd k])) j q →
      r.response.index = d.index ∧ ∃ v A, (qRun E d (pre ++ [.deal dd k])).verifiers.get j = some v ∧
        v.aggregator = some A ∧ A.deal = some q ∧ A.t = q.t ∧ A.sid = q.sessionId ∧ A.badDealer = false ∧
        Wf ps A ∧ ∀ l, statusAt A l = if l = d.index then some r.response.status
          else if l = j then some true else none := by
    intro x T s f g d h0 pre dd k r q hdd hne hr hq
    obtain ⟨i1, -, i3, -, i5, -⟩ := newDistKeyGenerator_ok h0
    have hev := qRun_evolves E d pre
    have hrun : qRun E d (pre ++ [.deal dd k]) = ((qRun E d pre).processDeal E dd k).1 := by
      simp [qRun, qStep]
    subst hdd
    obtain ⟨-, g2, v, A, q', g3, g4, g5, g6, g7, g8, g9, g10⟩ := firstAnswers (by
      rw [hev.participants, hev.long, hev.index, i3, i5]; exact i1) (by rw [hev.index]; exact hne) hr
    rw [← hrun] at g3
    obtain ⟨v', A', k1, k2, k3⟩ := hq
    rw [g3] at k1
    cases k1
    rw [g4] at k2
    cases k2
    rw [g5] at k3
    cases k3
    rw [hev.index] at g2 g10
    rw [hev.participants, i5] at g9
    exact ⟨g2, v, A, g3, g4, g5, g6, g7, g8, g9, g10⟩
  obtain ⟨ia, va, A, a1, a2, a3, a4, a5, a6, a7, a8⟩ := fresh ha prea dda ka ra qa hda hja hra hqa
  obtain ⟨ib, vb, B, b1, b2, b3, b4, b5, b6, b7, b8⟩ := fresh hb preb ddb kb rb qb hdb hjb hrb hqb
  have hrest : ∀ (d : Dkg F G) (pre post : List (QCall F G)) (dd : DkgR.Deal G) (k : F),
      qRun E d (pre ++ .deal dd k :: post) = qRun E (qRun E d (pre ++ [.deal dd k])) post := by
    intro d pre post dd k
    simp [qRun]
  rw [hrest a prea, hrest b preb]
  obtain ⟨wa, wa1, wa2⟩ := run_about E (by rw [(qRun_evolves E a _).index]; exact hja) a1 a2
    (by rw [a3]; rfl) posta
  obtain ⟨wb, wb1, wb2⟩ := run_about E (by rw [(qRun_evolves E b _).index]; exact hjb) b1 b2
    (by rw [b3]; rfl) postb
  let c : Nat → Option Bool := fun l => if l = a.index then some ra.response.status else
    if l = b.index then some rb.response.status else none
  have hsame : a.index = b.index → rb.response.status = ra.response.status := fun h =>
    hua rb.response hinb.1 (ib.trans h.symm) (hinb.2.1.trans hsid.symm) hinb.2.2
  have hL : Like ps c A B := by
    refine ⟨a7, b7, by rw [a4, b4, ht], by rw [a5, b5, hsid], by rw [a6, b6], by rw [a3]; rfl,
      by rw [b3]; rfl, fun l hl => ?_, fun l s hl => ?_⟩
    · have h1 : l ≠ a.index := by rintro rfl; simp [c] at hl
      have h2 : l ≠ b.index := by
        rintro rfl
        simp only [c] at hl
        rw [if_neg h1, if_pos trivial] at hl
        cases hl
      rw [a8, b8, if_neg h1, if_neg h2]
    · rw [a8, b8]
      simp only [c] at hl
      by_cases h1 : l = a.index
      · rw [if_pos h1] at hl ⊢
        refine ⟨Or.inr hl, ?_⟩
        by_cases h2 : l = b.index
        · rw [if_pos h2, hsame (h1.symm.trans h2)]; exact Or.inr hl
        · rw [if_neg h2, if_neg (fun h => hja (h.symm.trans h1))]; exact Or.inl rfl
      · rw [if_neg h1] at hl ⊢
        by_cases h2 : l = b.index
        · rw [if_pos h2] at hl ⊢
          rw [if_neg (fun h => hjb (h.symm.trans h2))]
          exact ⟨Or.inl rfl, Or.inr hl⟩
        · rw [if_neg h2] at hl; cases hl
  have h1 := hL.run (E := E) B1 hT
    (by
      intro r s hr hc hs hauth
      rw [a5] at hs
      simp only [c] at hc
      split at hc
      · rename_i hi; cases hc; exact hua r hr hi hs hauth
      · split at hc
        · rename_i hi; cases hc; exact hub r hr hi hs hauth
        · cases hc)
    (by
      intro ju hm hc
      simp only [c] at hc
      split at hc
      · rename_i hi; rw [(hju ju hm).1 hi] at hc; cases hc
      · split at hc
        · rename_i hi; rw [(hju ju hm).2 hi] at hc; cases hc
        · cases hc)
  have h2 := h1.close (by
    intro l s hc
    have hl : l = a.index ∨ l = b.index := by
      simp only [c] at hc
      split at hc
      · left; assumption
      · split at hc
        · right; assumption
        · cases hc
    constructor
    · refine statusAt_isSome a7 (by rw [a3]; rfl) B1 hT (Or.inr ?_)
      rcases hl with rfl | rfl
      · exact ⟨_, hina.1, ia, hina.2.1.trans a5.symm, hina.2.2⟩
      · exact ⟨_, hinb.1, ib, (hinb.2.1.trans hsid.symm).trans a5.symm, hinb.2.2⟩
    · refine statusAt_isSome b7 (by rw [b3]; rfl) B1 hT (Or.inr ?_)
      rcases hl with rfl | rfl
      · exact ⟨_, hina.1, ia, (hina.2.1.trans hsid).trans b5.symm, hina.2.2⟩
      · exact ⟨_, hinb.1, ib, hinb.2.1.trans b5.symm, hinb.2.2⟩)
  have h3 := (h2.run_closed (E := E) B2).certified
  rw [hBa, List.foldl_append] at wa2
  rw [hBb, List.foldl_append] at wb2
  constructor
  · rintro ⟨v, A', k1, k2, k3⟩
    rw [wa1] at k1; cases k1
    rw [wa2] at k2; cases k2
    exact ⟨wb, _, wb1, wb2, by rw [← h3]; exact k3⟩
  · rintro ⟨v, A', k1, k2, k3⟩
    rw [wb1] at k1; cases k1
    rw [wb2] at k2; cases k2
    exact ⟨wa, _, wa1, wa2, by rw [h3]; exact k3⟩

end

namespace AgreementExample

open Kyber.Toy DkgRExample

/-- The deal of participant 2 for participant `i`. -/
def deal2 (i : Nat) : DkgR.Deal (ZMod 11) := (netR envRI).dealMsg envRI 2 i

/-- What participant 2 deals to participant `i`. -/
def dealt2 (i : Nat) : VssR.Deal (ZMod 11) (ZMod 11) :=
  match ((netR envRI).D 2).dealer.deals[i]? with
  | some d => d
  | none => ⟨[], ⟨0, 0⟩, ⟨0, 0⟩, 0, []⟩

/-- A complaint in the name of participant 0 that it did not sign. -/
def forged : DkgR.Response := ⟨2, ⟨((netR envRI).D 2).dealer.sessionId, 0, false, [1, 2]⟩⟩

/-- What comes after the deals: the forged complaint, the answers, then the timeout and an answer that
comes too late. Participant 0 processes messages about others in between. -/
def after (i : Nat) : List (QCall (ZMod 11) (ZMod 11)) :=
  [.response forged 1, .response ((netR envRI).respMsg envRI 2 1) 1] ++
    (if i = 0 then [.deal ((netR envRI).dealMsg envRI 1 0) 5, .response ((netR envRI).respMsg envRI 1 2) 1] else []) ++
    [.response ((netR envRI).respMsg envRI 2 0) 1, .timeout, .response ((netR envRI).respMsg envRI 2 1) 1]

def before : List (About (VssR.Justification (ZMod 11) (ZMod 11))) :=
  [.response forged.response, .response ((netR envRI).respMsg envRI 2 1).response,
    .response ((netR envRI).respMsg envRI 2 0).response]

def since : List (About (VssR.Justification (ZMod 11) (ZMod 11))) :=
  [.timeout, .response ((netR envRI).respMsg envRI 2 1).response]

/-- The deal of participant 2 that a participant holds. -/
def held2 (d : Dkg (ZMod 11) (ZMod 11)) : Option (VssR.Deal (ZMod 11) (ZMod 11)) :=
  (d.verifiers.get 2).bind (fun v => v.aggregator.bind (fun a => a.deal))

theorem holds2 {d : Dkg (ZMod 11) (ZMod 11)} (q : VssR.Deal (ZMod 11) (ZMod 11)) (h : held2 d = some q) :
    HoldsDeal d 2 q := by
  unfold held2 at h
  simp only [Option.bind_eq_some_iff] at h
  obtain ⟨v, h1, a, h2, h3⟩ := h
  exact ⟨v, a, h1, h2, h3⟩

theorem own_names : ∀ r, .response r ∈ before → Authentic envRI.suite [6, 10, 4] r → r.status = true := by
  intro r hr hauth
  simp only [before, List.mem_cons, List.not_mem_nil, or_false, About.response.injEq] at hr
  rcases hr with rfl | rfl | rfl
  · obtain ⟨P, h1, h2⟩ := hauth
    exfalso
    have h1' : (6 : ZMod 11) = P := Option.some.inj h1
    subst h1'
    revert h2
    decide +kernel
  · rfl
  · rfl

end AgreementExample

open AgreementExample DkgRExample Toy in
example : QualifiedR (qRun envRI ((netR envRI).D 0) ([] ++ .deal (deal2 0) 5 :: after 0)) 2 ↔
    QualifiedR (qRun envRI ((netR envRI).D 1) ([] ++ .deal (deal2 1) 5 :: after 1)) 2 :=
  C123_rabin_partial envRI 3 5 [6, 10, 4] 2 2 7 1 [5] [2, 8] [6] [3, 7] _ _ rfl rfl 2 (by decide +kernel)
    (by decide +kernel) [] (after 0) [] (after 1) (deal2 0) (deal2 1) 5 5
    ((netR envRI).respMsg envRI 2 0) ((netR envRI).respMsg envRI 2 1) rfl rfl (by decide +kernel)
    (by decide +kernel) (dealt2 0) (dealt2 1) (holds2 _ (by decide +kernel))
    (holds2 _ (by decide +kernel)) (by decide +kernel) (by decide +kernel) before since rfl rfl
    (by simp [before]) ⟨by simp [before], by decide +kernel, 6, rfl, by decide +kernel⟩
    ⟨by simp [before], by decide +kernel, 10, rfl, by decide +kernel⟩
    (fun r hr _ _ h => own_names r hr h) (fun r hr _ _ h => own_names r hr h)
    (fun _ h => by simp [before] at h)

open AgreementExample DkgRExample Toy in
example : 2 ∈ (qRun envRI ((netR envRI).D 0) (.deal (deal2 0) 5 :: after 0)).qual MapOrder.id ∧
    2 ∈ (qRun envRI ((netR envRI).D 1) (.deal (deal2 1) 5 :: after 1)).qual MapOrder.id := by
  decide +kernel

end Kyber.Props
