/-
C155: whether a deal is certified does not depend on the order of the responses.
-/
import Verif.Props.VssPedersen
import Verif.Props.VssRabin
import Verif.Props.VssRabinMore
import Verif.Props.AgreementPedersen
import Verif.Spec.ToyVss
import Verif.Spec.ToyVssR

namespace Kyber.Props

open Kyber Kyber.Poly Kyber.Spec

variable {F G : Type} [Field F] [AddCommGroup G] [SMul F G] [DecidableEq G]

/-! ## Pedersen VSS -/

namespace OrderP

open Kyber.VssP

/-- `process_response` of the verifier for the responses of the list, one after the other. -/
def hear (S : Suite F G) (v : Verifier F G) (l : List Response) : Verifier F G :=
  l.foldl (fun v r => (v.processResponse S r).1) v

/-- The response bears the session id of the verifier, if it has one yet, and a signature by the holder of the index. -/
def Counts (S : Suite F G) (v : Verifier F G) (r : Response) : Prop :=
  (v.aggregator.sid ≠ [] → r.sessionId = v.aggregator.sid) ∧
  ∃ pub, v.aggregator.verifiers[r.index]? = some pub ∧ Schnorr.verify S pub (r.hash S) r.signature = .ok ()

/-- The verifier stored the answer `s` of `k`, or it is in the list. -/
def Said (S : Suite F G) (v : Verifier F G) (l : List Response) (k : Nat) (s : Bool) : Prop :=
  (∃ r, v.aggregator.responses.get k = some r ∧ r.status = s) ∨
  ∃ r ∈ l, Counts S v r ∧ r.index = k ∧ r.status = s

end OrderP

open OrderP VssP in
/-- The full property: two verifiers of one deal that have the same answers, in any order, agree whether the deal is
certified. -/
def C155_statement : Prop :=
  ∀ (F G : Type) (_ : Field F) (_ : AddCommGroup G) (_ : SMul F G) (_ : DecidableEq G) (S : Suite F G)
    (v : Verifier F G) (l l' : List Response), l.Perm l' →
    (hear S v l).aggregator.dealCertified = (hear S v l').aggregator.dealCertified

namespace OrderP

open Kyber.VssP

omit [Field F] in
theorem step_other (S : Suite F G) (v : Verifier F G) (r : Response) :
    let w := (v.processResponse S r).1
    w.aggregator.verifiers = v.aggregator.verifiers ∧ w.aggregator.sid = v.aggregator.sid ∧
    w.aggregator.t = v.aggregator.t ∧ w.aggregator.badDealer = v.aggregator.badDealer ∧
    w.aggregator.timeout = v.aggregator.timeout := by
  show (v.aggregator.verifyResponse S r).1.verifiers = _ ∧ (v.aggregator.verifyResponse S r).1.sid = _ ∧
    (v.aggregator.verifyResponse S r).1.t = _ ∧ (v.aggregator.verifyResponse S r).1.badDealer = _ ∧
    (v.aggregator.verifyResponse S r).1.timeout = _
  unfold Aggregator.verifyResponse Aggregator.addResponse
  split
  · exact ⟨rfl, rfl, rfl, rfl, rfl⟩
  · split
    · exact ⟨rfl, rfl, rfl, rfl, rfl⟩
    · split
      · split
        · exact ⟨rfl, rfl, rfl, rfl, rfl⟩
        · split <;> exact ⟨rfl, rfl, rfl, rfl, rfl⟩
      · exact ⟨rfl, rfl, rfl, rfl, rfl⟩
      · exact ⟨rfl, rfl, rfl, rfl, rfl⟩

omit [Field F] in
theorem hear_other (S : Suite F G) (l : List Response) : ∀ v : Verifier F G,
    (hear S v l).aggregator.verifiers = v.aggregator.verifiers ∧ (hear S v l).aggregator.sid = v.aggregator.sid ∧
    (hear S v l).aggregator.t = v.aggregator.t ∧ (hear S v l).aggregator.badDealer = v.aggregator.badDealer ∧
    (hear S v l).aggregator.timeout = v.aggregator.timeout := by
  induction l with
  | nil => exact fun v => ⟨rfl, rfl, rfl, rfl, rfl⟩
  | cons r l ih =>
    intro v
    obtain ⟨h1, h2, h3, h4, h5⟩ := ih (v.processResponse S r).1
    obtain ⟨g1, g2, g3, g4, g5⟩ := step_other S v r
    exact ⟨h1.trans g1, h2.trans g2, h3.trans g3, h4.trans g4, h5.trans g5⟩

theorem step_get (S : Suite F G) (v : Verifier F G) (r : Response) (k : Nat) (q : Response) :
    (v.processResponse S r).1.aggregator.responses.get k = some q ↔
      v.aggregator.responses.get k = some q ∨
      (v.aggregator.responses.get k = none ∧ r = q ∧ Counts S v r ∧ r.index = k) := by
  show (v.aggregator.verifyResponse S r).1.responses.get k = some q ↔ _
  unfold Counts
  by_cases hc : (v.aggregator.sid ≠ [] → r.sessionId = v.aggregator.sid) ∧
      ∃ pub, v.aggregator.verifiers[r.index]? = some pub ∧ Schnorr.verify S pub (r.hash S) r.signature = .ok ()
  · obtain ⟨h1, pub, h2, h3⟩ := hc
    have e : v.aggregator.verifyResponse S r = v.aggregator.addResponse r := by
      unfold Aggregator.verifyResponse findPub
      rw [if_neg (by rintro ⟨a, b⟩; exact b (h1 a)), h2]
      simp only [h3]
    rw [e]
    unfold Aggregator.addResponse findPub
    rw [h2]
    simp only [Option.isNone_some, Bool.false_eq_true, if_false]
    cases hg : v.aggregator.responses.get r.index with
    | some p =>
      simp only [Option.isSome_some, if_true]
      constructor
      · exact .inl
      · rintro (h | ⟨hn, -, -, rfl⟩)
        · exact h
        · rw [hg] at hn; cases hn
    | none =>
      simp only [Option.isSome_none, Bool.false_eq_true, if_false]
      rw [AMap.get_insert]
      by_cases hk : k = r.index
      · subst hk
        rw [if_pos rfl, hg, Option.some.injEq]
        constructor
        · exact fun h => .inr ⟨rfl, h, ⟨h1, pub, rfl, h3⟩, rfl⟩
        · rintro (h | ⟨-, h, -⟩)
          · cases h
          · exact h
      · rw [if_neg hk]
        constructor
        · exact .inl
        · rintro (h | ⟨-, -, -, h⟩)
          · exact h
          · exact absurd h.symm hk
  · have e : (v.aggregator.verifyResponse S r).1 = v.aggregator := by
      rcases verifyResponse_cases S v.aggregator r with ⟨e, h⟩ | h | ⟨pub, h1, h2, h3, -⟩
      · rw [h]
      · rw [h]
      · exact absurd ⟨h1, pub, h2, h3⟩ hc
    rw [e]
    constructor
    · exact .inl
    · rintro (h | ⟨-, -, h, -⟩)
      · exact h
      · exact absurd h hc

omit [Field F] in
theorem counts_step (S : Suite F G) (v : Verifier F G) (r q : Response) :
    Counts S (v.processResponse S r).1 q ↔ Counts S v q := by
  obtain ⟨g1, g2, -⟩ := step_other S v r
  unfold Counts
  rw [g1, g2]

end OrderP

open OrderP VssP in
/-- C155: what is stored in the end: what was stored, and for the other indices the first response in the list with the
right session id and a signature by the holder of the index. -/
theorem C155_first_wins (S : Suite F G) (l : List Response) (v : Verifier F G) (k : Nat) (q : Response) :
    (hear S v l).aggregator.responses.get k = some q ↔
      v.aggregator.responses.get k = some q ∨
      (v.aggregator.responses.get k = none ∧ ∃ pre post, l = pre ++ q :: post ∧ Counts S v q ∧ q.index = k ∧
        ∀ r ∈ pre, ¬ (Counts S v r ∧ r.index = k)) := by
  induction l generalizing v with
  | nil =>
    show v.aggregator.responses.get k = some q ↔ _
    constructor
    · exact .inl
    · rintro (h | ⟨-, pre, post, h, -⟩)
      · exact h
      · simp at h
  | cons r l ih =>
    show (hear S (v.processResponse S r).1 l).aggregator.responses.get k = some q ↔ _
    rw [ih, step_get]
    have hnone : (v.processResponse S r).1.aggregator.responses.get k = none ↔
        v.aggregator.responses.get k = none ∧ ¬ (Counts S v r ∧ r.index = k) := by
      constructor
      · intro h
        have hn : v.aggregator.responses.get k = none := by
          by_contra hc
          obtain ⟨p, hp⟩ := Option.ne_none_iff_exists'.1 hc
          rw [(step_get S v r k p).2 (.inl hp)] at h
          cases h
        refine ⟨hn, fun hc => ?_⟩
        rw [(step_get S v r k r).2 (.inr ⟨hn, rfl, hc.1, hc.2⟩)] at h
        cases h
      · rintro ⟨h1, h2⟩
        by_contra hc
        obtain ⟨p, hp⟩ := Option.ne_none_iff_exists'.1 hc
        rcases (step_get S v r k p).1 hp with h | ⟨-, -, h3, h4⟩
        · rw [h1] at h; cases h
        · exact h2 ⟨h3, h4⟩
    rw [hnone]
    simp only [counts_step]
    constructor
    · rintro ((h | ⟨h1, rfl, h2, h3⟩) | ⟨⟨h1, h2⟩, pre, post, rfl, h3, h4, h5⟩)
      · exact .inl h
      · exact .inr ⟨h1, [], l, rfl, h2, h3, by simp⟩
      · refine .inr ⟨h1, r :: pre, post, rfl, h3, h4, ?_⟩
        intro p hp
        rcases List.mem_cons.1 hp with rfl | hp
        · exact h2
        · exact h5 p hp
    · rintro (h | ⟨h1, pre, post, e, h3, h4, h5⟩)
      · exact .inl (.inl h)
      · cases pre with
        | nil =>
          simp only [List.nil_append, List.cons.injEq] at e
          obtain ⟨rfl, rfl⟩ := e
          exact .inl (.inr ⟨h1, rfl, h3, h4⟩)
        | cons p pre =>
          simp only [List.cons_append, List.cons.injEq] at e
          obtain ⟨rfl, rfl⟩ := e
          exact .inr ⟨⟨h1, h5 r (by simp)⟩, pre, post, rfl, h3, h4, fun x hx => h5 x (by simp [hx])⟩

namespace OrderP

open Kyber.VssP

/-- The stored statuses, when the first response counts and nobody gives two different answers. -/
theorem status_iff (C : Response → Prop) (m m' : AMap Response) (l : List Response)
    (hm : ∀ k q, m'.get k = some q ↔ m.get k = some q ∨
      (m.get k = none ∧ ∃ pre post, l = pre ++ q :: post ∧ C q ∧ q.index = k ∧ ∀ r ∈ pre, ¬ (C r ∧ r.index = k)))
    (k : Nat)
    (hne : ∀ s s', ((∃ r, m.get k = some r ∧ r.status = s) ∨ ∃ r ∈ l, C r ∧ r.index = k ∧ r.status = s) →
      ((∃ r, m.get k = some r ∧ r.status = s') ∨ ∃ r ∈ l, C r ∧ r.index = k ∧ r.status = s') → s = s') (s : Bool) :
    (∃ r, m'.get k = some r ∧ r.status = s) ↔
      ((∃ r, m.get k = some r ∧ r.status = s) ∨ ∃ r ∈ l, C r ∧ r.index = k ∧ r.status = s) := by
  classical
  constructor
  · rintro ⟨r, h, hs⟩
    rcases (hm k r).1 h with h | ⟨-, pre, post, rfl, h1, h2, -⟩
    · exact .inl ⟨r, h, hs⟩
    · exact .inr ⟨r, by simp, h1, h2, hs⟩
  · intro h
    cases hg : m.get k with
    | some p =>
      exact ⟨p, (hm k p).2 (.inl hg), hne _ _ (.inl ⟨p, hg, rfl⟩) h⟩
    | none =>
      rcases h with ⟨r, h, -⟩ | ⟨r, hr, h1, h2, h3⟩
      · rw [hg] at h; cases h
      · have hsome : (l.find? (fun r => decide (C r ∧ r.index = k))).isSome := by
          rw [List.find?_isSome]
          exact ⟨r, hr, by simp [h1, h2]⟩
        obtain ⟨q, hq⟩ := Option.isSome_iff_exists.1 hsome
        obtain ⟨g1, pre, post, e, g2⟩ := List.find?_eq_some_iff_append.1 hq
        rw [decide_eq_true_eq] at g1
        refine ⟨q, (hm k q).2 (.inr ⟨hg, pre, post, e, g1.1, g1.2, fun r hr => ?_⟩), ?_⟩
        · have := g2 r hr
          rw [Bool.not_eq_true', decide_eq_false_iff_not] at this
          exact this
        · refine hne _ _ (.inr ⟨q, ?_, g1.1, g1.2, rfl⟩) (.inr ⟨r, hr, h1, h2, h3⟩)
          rw [e]; simp

theorem sets_eq (m m' : AMap Response)
    (h : ∀ k s, (∃ r, m.get k = some r ∧ r.status = s) ↔ (∃ r, m'.get k = some r ∧ r.status = s)) (n : Nat) :
    approvedBy m n = approvedBy m' n ∧ complainedBy m n = complainedBy m' n ∧ missing m n = missing m' n := by
  have hn : ∀ k, m.get k = none ↔ m'.get k = none := by
    intro k
    rw [← not_iff_not, ← ne_eq, ← ne_eq, Option.ne_none_iff_exists', Option.ne_none_iff_exists']
    constructor
    · rintro ⟨r, hr⟩
      obtain ⟨r', hr', -⟩ := (h k r.status).1 ⟨r, hr, rfl⟩
      exact ⟨r', hr'⟩
    · rintro ⟨r, hr⟩
      obtain ⟨r', hr', -⟩ := (h k r.status).2 ⟨r, hr, rfl⟩
      exact ⟨r', hr'⟩
  refine ⟨?_, ?_, ?_⟩
  · exact Finset.filter_congr fun k _ => h k true
  · exact Finset.filter_congr fun k _ => h k false
  · exact Finset.filter_congr fun k _ => hn k

end OrderP

open OrderP VssP in
/-- C155: two verifiers with the same key list, session, threshold, timeout and verdict on the dealer, who heard the
same answers, each in an order of its own, some stored before and some received: if nobody gave two different answers,
they agree whether the deal is certified. Missing to the full property: the verifiers who give two answers, see
`C155_violated`. -/
theorem C155_agree_partial (S : Suite F G) (v w : Verifier F G) (l l' : List Response)
    (hk : v.aggregator.verifiers = w.aggregator.verifiers) (ht : v.aggregator.t = w.aggregator.t)
    (hb : v.aggregator.badDealer = w.aggregator.badDealer) (hto : v.aggregator.timeout = w.aggregator.timeout)
    (hsaid : ∀ k s, Said S v l k s ↔ Said S w l' k s)
    (hone : ∀ k, ¬ (Said S v l k true ∧ Said S v l k false)) :
    (hear S v l).aggregator.dealCertified = (hear S w l').aggregator.dealCertified := by
  have hne : ∀ k s s', Said S v l k s → Said S v l k s' → s = s' := by
    intro k s s' h h'
    cases s <;> cases s'
    · rfl
    · exact absurd ⟨h', h⟩ (hone k)
    · exact absurd ⟨h, h'⟩ (hone k)
    · rfl
  have h1 := fun k s => status_iff (Counts S v) _ _ l (fun k q => C155_first_wins S l v k q) k (hne k) s
  have h2 := fun k s => status_iff (Counts S w) _ _ l' (fun k q => C155_first_wins S l' w k q) k
    (fun s s' h h' => hne k s s' ((hsaid k s).2 h) ((hsaid k s').2 h')) s
  obtain ⟨a1, -, a3, a4, a5⟩ := hear_other S l v
  obtain ⟨b1, -, b3, b4, b5⟩ := hear_other S l' w
  obtain ⟨e1, e2, e3⟩ := sets_eq _ _ (fun k s => (h1 k s).trans ((hsaid k s).trans (h2 k s).symm))
    w.aggregator.verifiers.length
  rw [Bool.eq_iff_iff, C23_certified_iff, C23_certified_iff, a1, a3, a4, a5, b1, b3, b4, b5, hk, ht, hb, hto, e1, e2,
    e3]

open OrderP VssP in
/-- C155: one verifier, the same responses in two orders. -/
theorem C155_order_partial (S : Suite F G) (v : Verifier F G) (l l' : List Response) (hp : l.Perm l')
    (hone : ∀ k, ¬ (Said S v l k true ∧ Said S v l k false)) :
    (hear S v l).aggregator.dealCertified = (hear S v l').aggregator.dealCertified := by
  refine C155_agree_partial S v v l l' rfl rfl rfl rfl (fun k s => ?_) hone
  unfold Said
  simp only [hp.mem_iff]

/-! ## Rabin VSS -/

namespace OrderR

open Kyber.VssR

/-- The response bears the session id of the aggregator and a signature by the holder of the index it names. -/
def Counts (S : Suite F G) (a : Aggregator F G) (r : VssP.Response) : Prop :=
  r.sessionId = a.sid ∧
  ∃ pub, a.verifiers[r.index]? = some pub ∧ Schnorr.verify S pub (r.hash S) r.signature = .ok ()

/-- The answer `s` of `k` is stored, or in the list. -/
def Said (S : Suite F G) (a : Aggregator F G) (l : List VssP.Response) (k : Nat) (s : Bool) : Prop :=
  (∃ r, a.responses.get k = some r ∧ r.status = s) ∨
  ∃ r ∈ l, Counts S a r ∧ r.index = k ∧ r.status = s

/-- The aggregator after the responses of the list. -/
def hear (S : Suite F G) (a : Aggregator F G) (l : List VssP.Response) : Aggregator F G :=
  l.foldl (fun a r => (a.verifyResponse S r).1) a

theorem run_hear (E : Env F G) (l : List VssP.Response) : ∀ (v : Verifier F G) (a : Aggregator F G),
    v.aggregator = some a → (rRun E v (l.map .response)).aggregator = some (hear E.suite a l) := by
  induction l with
  | nil => exact fun v a h => h
  | cons r l ih =>
    intro v a h
    refine ih (rStep E v (.response r)) (a.verifyResponse E.suite r).1 ?_
    show (v.processResponse E.suite r).1.aggregator = _
    unfold Verifier.processResponse
    rw [h]

omit [Field F] in
theorem step_other (S : Suite F G) (a : Aggregator F G) (r : VssP.Response) :
    (a.verifyResponse S r).1.verifiers = a.verifiers ∧ (a.verifyResponse S r).1.sid = a.sid ∧
    (a.verifyResponse S r).1.t = a.t ∧ (a.verifyResponse S r).1.badDealer = a.badDealer := by
  unfold Aggregator.verifyResponse Aggregator.addResponse
  split
  · exact ⟨rfl, rfl, rfl, rfl⟩
  · split
    · exact ⟨rfl, rfl, rfl, rfl⟩
    · split
      · split
        · exact ⟨rfl, rfl, rfl, rfl⟩
        · split <;> exact ⟨rfl, rfl, rfl, rfl⟩
      · exact ⟨rfl, rfl, rfl, rfl⟩
      · exact ⟨rfl, rfl, rfl, rfl⟩

omit [Field F] in
theorem hear_other (S : Suite F G) (l : List VssP.Response) : ∀ a : Aggregator F G,
    (hear S a l).verifiers = a.verifiers ∧ (hear S a l).sid = a.sid ∧
    (hear S a l).t = a.t ∧ (hear S a l).badDealer = a.badDealer := by
  induction l with
  | nil => exact fun v => ⟨rfl, rfl, rfl, rfl⟩
  | cons r l ih =>
    intro a
    obtain ⟨h1, h2, h3, h4⟩ := ih (a.verifyResponse S r).1
    obtain ⟨g1, g2, g3, g4⟩ := step_other S a r
    exact ⟨h1.trans g1, h2.trans g2, h3.trans g3, h4.trans g4⟩

theorem step_get (S : Suite F G) (a : Aggregator F G) (r : VssP.Response) (k : Nat) (q : VssP.Response) :
    (a.verifyResponse S r).1.responses.get k = some q ↔
      a.responses.get k = some q ∨ (a.responses.get k = none ∧ r = q ∧ Counts S a r ∧ r.index = k) := by
  unfold Counts
  by_cases hc : r.sessionId = a.sid ∧
      ∃ pub, a.verifiers[r.index]? = some pub ∧ Schnorr.verify S pub (r.hash S) r.signature = .ok ()
  · obtain ⟨h1, pub, h2, h3⟩ := hc
    have e : a.verifyResponse S r = a.addResponse r := by
      unfold Aggregator.verifyResponse VssP.findPub
      rw [if_neg (by simpa using h1), h2]
      simp only [h3]
    rw [e]
    unfold Aggregator.addResponse VssP.findPub
    rw [h2]
    simp only [Option.isNone_some, Bool.false_eq_true, if_false]
    cases hg : a.responses.get r.index with
    | some p =>
      simp only [Option.isSome_some, if_true]
      constructor
      · exact .inl
      · rintro (h | ⟨hn, -, -, rfl⟩)
        · exact h
        · rw [hg] at hn; cases hn
    | none =>
      simp only [Option.isSome_none, Bool.false_eq_true, if_false]
      rw [AMap.get_insert]
      by_cases hk : k = r.index
      · subst hk
        rw [if_pos rfl, hg, Option.some.injEq]
        constructor
        · exact fun h => .inr ⟨rfl, h, ⟨h1, pub, rfl, h3⟩, rfl⟩
        · rintro (h | ⟨-, h, -⟩)
          · cases h
          · exact h
      · rw [if_neg hk]
        constructor
        · exact .inl
        · rintro (h | ⟨-, -, -, h⟩)
          · exact h
          · exact absurd h.symm hk
  · have e : (a.verifyResponse S r).1 = a := by
      rcases verifyResponse_cases S a r with ⟨e, h⟩ | h | ⟨pub, h1, h2, h3, -⟩
      · rw [h]
      · rw [h]
      · exact absurd ⟨h1, pub, h2, h3⟩ hc
    rw [e]
    constructor
    · exact .inl
    · rintro (h | ⟨-, -, h, -⟩)
      · exact h
      · exact absurd h hc

omit [Field F] in
theorem counts_step (S : Suite F G) (a : Aggregator F G) (r q : VssP.Response) :
    Counts S (a.verifyResponse S r).1 q ↔ Counts S a q := by
  obtain ⟨g1, g2, -⟩ := step_other S a r
  unfold Counts
  rw [g1, g2]

end OrderR

open OrderR VssR in
/-- C155: the same in Rabin's VSS: what is stored, and otherwise the first response that counts. -/
theorem C155_first_wins_rabin (S : Suite F G) (l : List VssP.Response) (a : Aggregator F G) (k : Nat) (q : VssP.Response) :
    (hear S a l).responses.get k = some q ↔
      a.responses.get k = some q ∨
      (a.responses.get k = none ∧ ∃ pre post, l = pre ++ q :: post ∧ Counts S a q ∧ q.index = k ∧
        ∀ r ∈ pre, ¬ (Counts S a r ∧ r.index = k)) := by
  induction l generalizing a with
  | nil =>
    show a.responses.get k = some q ↔ _
    constructor
    · exact .inl
    · rintro (h | ⟨-, pre, post, h, -⟩)
      · exact h
      · simp at h
  | cons r l ih =>
    show (hear S (a.verifyResponse S r).1 l).responses.get k = some q ↔ _
    rw [ih, step_get]
    have hnone : (a.verifyResponse S r).1.responses.get k = none ↔
        a.responses.get k = none ∧ ¬ (Counts S a r ∧ r.index = k) := by
      constructor
      · intro h
        have hn : a.responses.get k = none := by
          by_contra hc
          obtain ⟨p, hp⟩ := Option.ne_none_iff_exists'.1 hc
          rw [(step_get S a r k p).2 (.inl hp)] at h
          cases h
        refine ⟨hn, fun hc => ?_⟩
        rw [(step_get S a r k r).2 (.inr ⟨hn, rfl, hc.1, hc.2⟩)] at h
        cases h
      · rintro ⟨h1, h2⟩
        by_contra hc
        obtain ⟨p, hp⟩ := Option.ne_none_iff_exists'.1 hc
        rcases (step_get S a r k p).1 hp with h | ⟨-, -, h3, h4⟩
        · rw [h1] at h; cases h
        · exact h2 ⟨h3, h4⟩
    rw [hnone]
    simp only [counts_step]
    constructor
    · rintro ((h | ⟨h1, rfl, h2, h3⟩) | ⟨⟨h1, h2⟩, pre, post, rfl, h3, h4, h5⟩)
      · exact .inl h
      · exact .inr ⟨h1, [], l, rfl, h2, h3, by simp⟩
      · refine .inr ⟨h1, r :: pre, post, rfl, h3, h4, ?_⟩
        intro p hp
        rcases List.mem_cons.1 hp with rfl | hp
        · exact h2
        · exact h5 p hp
    · rintro (h | ⟨h1, pre, post, e, h3, h4, h5⟩)
      · exact .inl (.inl h)
      · cases pre with
        | nil =>
          simp only [List.nil_append, List.cons.injEq] at e
          obtain ⟨rfl, rfl⟩ := e
          exact .inl (.inr ⟨h1, rfl, h3, h4⟩)
        | cons p pre =>
          simp only [List.cons_append, List.cons.injEq] at e
          obtain ⟨rfl, rfl⟩ := e
          exact .inr ⟨⟨h1, h5 r (by simp)⟩, pre, post, rfl, h3, h4, fun x hx => h5 x (by simp [hx])⟩

open OrderR VssR in
/-- C155: two verifiers of Rabin's VSS, after any calls that brought them to the same session, threshold and verdict on
the dealer, who heard the same answers, each in an order of its own: if nobody gave two different answers, they agree
whether the deal is certified. Missing as in `C155_agree_partial`. -/
theorem C155_agree_rabin_partial (E : Env F G) (x y : F) (dealer : G) (pubs : List G) (v w : Verifier F G)
    (hv : newVerifier E.suite x dealer pubs = .ok v) (hw : newVerifier E.suite y dealer pubs = .ok w)
    (cs cs' : List (RCall F G)) (a b : Aggregator F G) (ha : (rRun E v cs).aggregator = some a)
    (hb : (rRun E w cs').aggregator = some b) (ht : a.t = b.t) (hbad : a.badDealer = b.badDealer)
    (l l' : List VssP.Response) (hsaid : ∀ k s, Said E.suite a l k s ↔ Said E.suite b l' k s)
    (hone : ∀ k, ¬ (Said E.suite a l k true ∧ Said E.suite a l k false)) :
    ∃ a' b', (rRun E v (cs ++ l.map .response)).aggregator = some a' ∧
      (rRun E w (cs' ++ l'.map .response)).aggregator = some b' ∧ a'.dealCertified = b'.dealCertified := by
  have hne : ∀ k s s', Said E.suite a l k s → Said E.suite a l k s' → s = s' := by
    intro k s s' h h'
    cases s <;> cases s'
    · rfl
    · exact absurd ⟨h', h⟩ (hone k)
    · exact absurd ⟨h, h'⟩ (hone k)
    · rfl
  have ra : (rRun E v (cs ++ l.map .response)).aggregator = some (hear E.suite a l) := by
    unfold rRun
    rw [List.foldl_append]
    exact run_hear E l _ a ha
  have rb : (rRun E w (cs' ++ l'.map .response)).aggregator = some (hear E.suite b l') := by
    unfold rRun
    rw [List.foldl_append]
    exact run_hear E l' _ b hb
  refine ⟨_, _, ra, rb, ?_⟩
  have h1 := fun k s => OrderP.status_iff (Counts E.suite a) _ _ l (fun k q => C155_first_wins_rabin E.suite l a k q) k
    (hne k) s
  have h2 := fun k s => OrderP.status_iff (Counts E.suite b) _ _ l' (fun k q => C155_first_wins_rabin E.suite l' b k q)
    k (fun s s' h h' => hne k s s' ((hsaid k s).2 h) ((hsaid k s').2 h')) s
  have h12 := fun k s => (h1 k s).trans ((hsaid k s).trans (h2 k s).symm)
  obtain ⟨-, -, a3, a4⟩ := hear_other E.suite l a
  obtain ⟨-, -, b3, b4⟩ := hear_other E.suite l' b
  rw [Bool.eq_iff_iff, C32_certified_iff E x dealer pubs v hv _ _ ra, C32_certified_iff E y dealer pubs w hw _ _ rb, a3,
    a4, b3, b4, ht, hbad]
  have e1 := (OrderP.sets_eq _ _ h12 pubs.length).1
  have e3 : ∀ i, (∃ r, (hear E.suite a l).responses.get i = some r) ↔
      ∃ r, (hear E.suite b l').responses.get i = some r := by
    intro i
    constructor
    · rintro ⟨r, hr⟩
      obtain ⟨r', hr', -⟩ := (h12 i r.status).1 ⟨r, hr, rfl⟩
      exact ⟨r', hr'⟩
    · rintro ⟨r, hr⟩
      obtain ⟨r', hr', -⟩ := (h12 i r.status).2 ⟨r, hr, rfl⟩
      exact ⟨r', hr'⟩
  unfold approvedBy at e1
  simp only [e3, e1]

namespace OrderExample

open Kyber.Toy VssPExample

/-- Verifier 0 after the deal of the honest dealer. -/
def v0 : VssP.Verifier (ZMod 11) (ZMod 11) := ((ver 0).processEncryptedDeal envP (encDeal dealer 0) 5).1

/-- Verifier 2 after its deal. -/
def v2 : VssP.Verifier (ZMod 11) (ZMod 11) := ((ver 2).processEncryptedDeal envP (encDeal dealer 2) 5).1

def r0 : VssP.Response := resp (encDeal dealer 0) 0
def r1 : VssP.Response := resp (encDeal dealer 1) 1
def r2 : VssP.Response := resp (encDeal dealer 2) 2

end OrderExample

open OrderExample VssPExample in
/-- C155, violated: verifier 1 approves the deal and complains about it; whoever hears the approval first has a
certified deal, whoever hears the complaint first does not. -/
theorem C155_violated : ¬ C155_statement := by
  intro h
  have := h (ZMod 11) (ZMod 11) inferInstance inferInstance inferInstance inferInstance Toy.suite v0 
    [r1, complaint, r2] [complaint, r1, r2] (.swap _ _ _)
  revert this
  decide +kernel

/-- C155, violated in Rabin's VSS: with threshold two of three, verifier 0 approves, verifier 1 gives both answers and
verifier 2 is silent until the timeout. -/
theorem C155_violated_rabin : ∃ (v : VssR.Verifier (ZMod 11) (ZMod 11)) (r c : VssP.Response),
    (∃ e k, v = ((VssRExample.ver 0).processEncryptedDeal Toy.envR e k).1) ∧
    ((rRun Toy.envR v [.response r, .response c, .timeout]).deal).isSome = true ∧
    ((rRun Toy.envR v [.response c, .response r, .timeout]).deal).isSome = false := by
  refine ⟨_, VssRExample.resp (VssRExample.encDeal VssRExample.dealer 1) 1, VssRExample.complaint,
    ⟨VssRExample.encDeal VssRExample.dealer 0, 5, rfl⟩, by decide +kernel, by decide +kernel⟩

namespace OrderExample

open Kyber.Toy

/-- A complaint of participant 2, with private key 2, about the deal of participant 0, which it approved as well. -/
def twoTongued : DkgP.Response :=
  let r : VssP.Response := ⟨((net envDI).D 0).dealer.sessionId, 2, false, []⟩
  ⟨0, { r with signature := Schnorr.sign envDI.suite 5 2 (r.hash envDI.suite) }⟩

/-- What participant `i` does, who receives the responses `l` after the deals. -/
def doing (i : Nat) (l : List DkgP.Response) : List (DCall (ZMod 11) (ZMod 11)) :=
  (([.deals, .deal (1 - i), .deal 2] : List HMsg).map (HMsg.call envDI (net envDI) 1 i)) ++
    l.map (fun r => .response r 1) ++ [.timeout]

/-- The response of `l` to the deal of `j`. -/
def m (j l : Nat) : DkgP.Response := (net envDI).respMsg envDI j l

/-- The responses in the order in which participant 0 receives them. -/
def at0 : List DkgP.Response := [m 0 2, twoTongued, m 0 1, m 1 0, m 1 2, m 2 0, m 2 1]

/-- The responses in the order in which participant 1 receives them. -/
def at1 : List DkgP.Response := [twoTongued, m 0 2, m 0 1, m 1 0, m 1 2, m 2 0, m 2 1]

end OrderExample

open OrderExample Toy DkgP in
/-- C155, violated in the Pedersen DKG: participants 0 and 1 follow the protocol and so does participant 2, except that
it sends a complaint about the deal of participant 0 beside its approval. Everybody receives all deals and all
responses, in two orders that differ in one place: participants 0 and 1 end with different public keys. -/
theorem C155_split_pedersen : at0.Perm at1 ∧
    (∀ r ∈ at0, r = twoTongued ∨ ∃ j l, j < 3 ∧ l < 3 ∧ r = (net envDI).respMsg envDI j l) ∧
    ∃ k k', (dRun envDI ((net envDI).D 0) (doing 0 at0)).distKeyShare envDI.suite MapOrder.id = .ok k ∧
      (dRun envDI ((net envDI).D 1) (doing 1 at1)).distKeyShare envDI.suite MapOrder.id = .ok k' ∧
      k.commits ≠ k'.commits := by
  refine ⟨.swap _ _ _, ?_, ⟨[2, 7], ⟨0, 10⟩, [7, 5]⟩, ⟨[10, 8], ⟨1, 2⟩, [1, 6]⟩, by decide +kernel, by decide +kernel,
    by decide +kernel⟩
  intro r hr
  simp only [at0, List.mem_cons, List.not_mem_nil, or_false] at hr
  rcases hr with rfl | rfl | rfl | rfl | rfl | rfl | rfl
  · exact .inr ⟨0, 2, by decide, by decide, rfl⟩
  · exact .inl rfl
  · exact .inr ⟨0, 1, by decide, by decide, rfl⟩
  · exact .inr ⟨1, 0, by decide, by decide, rfl⟩
  · exact .inr ⟨1, 2, by decide, by decide, rfl⟩
  · exact .inr ⟨2, 0, by decide, by decide, rfl⟩
  · exact .inr ⟨2, 1, by decide, by decide, rfl⟩

namespace OrderExample

open Kyber.Toy VssPExample

/-- `C155_first_wins`: the approval of verifier 1 comes before its complaint. -/
example : (OrderP.hear suite v0 [r2, r1, complaint]).aggregator.responses.get 1 = some r1 :=
  (C155_first_wins suite _ v0 1 r1).2 (.inr ⟨by decide +kernel, [r2], [complaint], rfl,
    ⟨fun _ => by decide +kernel, 10, by decide +kernel, by decide +kernel⟩, by decide +kernel, by
      intro r hr
      rw [List.mem_singleton.1 hr]
      exact fun h => absurd h.2 (by decide +kernel)⟩)

/-- Whose answers are known: those stored and those in the list. -/
theorem said_of (v : VssP.Verifier (ZMod 11) (ZMod 11)) (i : Nat) (a b c : VssP.Response)
    (h0 : v.aggregator.responses = [(i, a)]) (hb : OrderP.Counts suite v b) (hc : OrderP.Counts suite v c)
    (ha : a.status = true) (hsb : b.status = true) (hsc : c.status = true) (m n : Nat) (hm : b.index = m)
    (hn : c.index = n) (k : Nat) (s : Bool) :
    OrderP.Said suite v [b, c] k s ↔ (k = i ∨ k = m ∨ k = n) ∧ s = true := by
  subst hm hn
  unfold OrderP.Said
  rw [h0]
  constructor
  · rintro (⟨r, h, rfl⟩ | ⟨r, h, -, rfl, rfl⟩)
    · by_cases hk : k = i
      · subst hk
        have : r = a := by simpa [AMap.get] using h.symm
        rw [this, ha]
        exact ⟨.inl rfl, rfl⟩
      · have hk' : (k == i) = false := by simpa using hk
        simp [AMap.get, List.lookup_cons, hk'] at h
    · rcases List.mem_cons.1 h with rfl | h
      · exact ⟨.inr (.inl rfl), hsb⟩
      · rw [List.mem_singleton.1 h]
        exact ⟨.inr (.inr rfl), hsc⟩
  · rintro ⟨rfl | rfl | rfl, rfl⟩
    · exact .inl ⟨a, by simp [AMap.get], ha⟩
    · exact .inr ⟨b, by simp, hb, rfl, hsb⟩
    · exact .inr ⟨c, by simp, hc, rfl, hsc⟩

/-- Verifier 0 hears verifiers 1 and 2. -/
theorem said0 (k : Nat) (s : Bool) : OrderP.Said suite v0 [r1, r2] k s ↔ (k = 0 ∨ k = 1 ∨ k = 2) ∧ s = true :=
  said_of v0 0 r0 r1 r2 (by decide +kernel) ⟨fun _ => by decide +kernel, 10, by decide +kernel, by decide +kernel⟩
    ⟨fun _ => by decide +kernel, 4, by decide +kernel, by decide +kernel⟩ (by decide +kernel) (by decide +kernel)
    (by decide +kernel) _ _ (by decide +kernel) (by decide +kernel) k s

/-- Verifier 2 hears verifiers 1 and 0. -/
theorem said2 (k : Nat) (s : Bool) : OrderP.Said suite v2 [r1, r0] k s ↔ (k = 2 ∨ k = 1 ∨ k = 0) ∧ s = true :=
  said_of v2 2 r2 r1 r0 (by decide +kernel) ⟨fun _ => by decide +kernel, 10, by decide +kernel, by decide +kernel⟩
    ⟨fun _ => by decide +kernel, 6, by decide +kernel, by decide +kernel⟩ (by decide +kernel) (by decide +kernel)
    (by decide +kernel) _ _ (by decide +kernel) (by decide +kernel) k s

theorem once (k : Nat) : ¬ (OrderP.Said suite v0 [r1, r2] k true ∧ OrderP.Said suite v0 [r1, r2] k false) :=
  fun h => nomatch ((said0 k false).1 h.2).2

/-- `C155_agree_partial`: verifiers 0 and 2 agree, and the deal is certified. -/
example : (OrderP.hear suite v0 [r1, r2]).aggregator.dealCertified =
      (OrderP.hear suite v2 [r1, r0]).aggregator.dealCertified ∧
    (OrderP.hear suite v0 [r1, r2]).aggregator.dealCertified = true :=
  ⟨C155_agree_partial suite v0 v2 [r1, r2] [r1, r0] (by decide +kernel) (by decide +kernel) (by decide +kernel)
    (by decide +kernel) (fun k s => by rw [said0, said2]; tauto) once, by decide +kernel⟩

/-- `C155_order_partial`: verifier 0 hears the two others in either order. -/
example := C155_order_partial suite v0 [r1, r2] [r2, r1] (.swap _ _ _) once

/-- The aggregator of verifier `i` of Rabin's VSS after its deal. -/
def aggR (i : Nat) : VssR.Aggregator (ZMod 11) (ZMod 11) :=
  match (rRun envR (VssRExample.ver i) [.encDeal (VssRExample.encDeal VssRExample.dealer i) 5]).aggregator with
  | some a => a
  | none => VssR.newAggregator [] [] 0 []

theorem aggR_eq (i : Nat)
    (h : (rRun envR (VssRExample.ver i) [.encDeal (VssRExample.encDeal VssRExample.dealer i) 5]).aggregator.isSome) :
    (rRun envR (VssRExample.ver i) [.encDeal (VssRExample.encDeal VssRExample.dealer i) 5]).aggregator =
      some (aggR i) := by
  unfold aggR
  split
  · assumption
  · next hn => rw [hn] at h; cases h

def q (i : Nat) : VssP.Response := VssRExample.resp (VssRExample.encDeal VssRExample.dealer i) i

/-- `C155_first_wins_rabin`: the approval of verifier 1 comes before its complaint. -/
example : (OrderR.hear suite (aggR 0) [q 2, q 1, VssRExample.complaint]).responses.get 1 = some (q 1) :=
  (C155_first_wins_rabin suite _ (aggR 0) 1 (q 1)).2 (.inr ⟨by decide +kernel, [q 2], [VssRExample.complaint], rfl,
    ⟨by decide +kernel, 10, by decide +kernel, by decide +kernel⟩, by decide +kernel, by
      intro r hr
      rw [List.mem_singleton.1 hr]
      exact fun h => absurd h.2 (by decide +kernel)⟩)

theorem said_ofR (v : VssR.Aggregator (ZMod 11) (ZMod 11)) (i : Nat) (a b c : VssP.Response)
    (h0 : v.responses = [(i, a)]) (hb : OrderR.Counts suite v b) (hc : OrderR.Counts suite v c)
    (ha : a.status = true) (hsb : b.status = true) (hsc : c.status = true) (m n : Nat) (hm : b.index = m)
    (hn : c.index = n) (k : Nat) (s : Bool) :
    OrderR.Said suite v [b, c] k s ↔ (k = i ∨ k = m ∨ k = n) ∧ s = true := by
  subst hm hn
  unfold OrderR.Said
  rw [h0]
  constructor
  · rintro (⟨r, h, rfl⟩ | ⟨r, h, -, rfl, rfl⟩)
    · by_cases hk : k = i
      · subst hk
        have : r = a := by simpa [AMap.get] using h.symm
        rw [this, ha]
        exact ⟨.inl rfl, rfl⟩
      · have hk' : (k == i) = false := by simpa using hk
        simp [AMap.get, List.lookup_cons, hk'] at h
    · rcases List.mem_cons.1 h with rfl | h
      · exact ⟨.inr (.inl rfl), hsb⟩
      · rw [List.mem_singleton.1 h]
        exact ⟨.inr (.inr rfl), hsc⟩
  · rintro ⟨rfl | rfl | rfl, rfl⟩
    · exact .inl ⟨a, by simp [AMap.get], ha⟩
    · exact .inr ⟨b, by simp, hb, rfl, hsb⟩
    · exact .inr ⟨c, by simp, hc, rfl, hsc⟩

theorem said0R (k : Nat) (s : Bool) :
    OrderR.Said suite (aggR 0) [q 1, q 2] k s ↔ (k = 0 ∨ k = 1 ∨ k = 2) ∧ s = true :=
  said_ofR (aggR 0) 0 (q 0) (q 1) (q 2) (by decide +kernel)
    ⟨by decide +kernel, 10, by decide +kernel, by decide +kernel⟩
    ⟨by decide +kernel, 4, by decide +kernel, by decide +kernel⟩ (by decide +kernel) (by decide +kernel)
    (by decide +kernel) _ _ (by decide +kernel) (by decide +kernel) k s

theorem said2R (k : Nat) (s : Bool) :
    OrderR.Said suite (aggR 2) [q 1, q 0] k s ↔ (k = 2 ∨ k = 1 ∨ k = 0) ∧ s = true :=
  said_ofR (aggR 2) 2 (q 2) (q 1) (q 0) (by decide +kernel)
    ⟨by decide +kernel, 10, by decide +kernel, by decide +kernel⟩
    ⟨by decide +kernel, 6, by decide +kernel, by decide +kernel⟩ (by decide +kernel) (by decide +kernel)
    (by decide +kernel) _ _ (by decide +kernel) (by decide +kernel) k s

/-- `C155_agree_rabin_partial`: verifiers 0 and 2 of Rabin's VSS. -/
example := C155_agree_rabin_partial envR 3 2 8 VssRExample.pubs (VssRExample.ver 0) (VssRExample.ver 2) (by rfl)
  (by rfl)
  [.encDeal (VssRExample.encDeal VssRExample.dealer 0) 5] [.encDeal (VssRExample.encDeal VssRExample.dealer 2) 5]
  (aggR 0) (aggR 2) (aggR_eq 0 (by decide +kernel)) (aggR_eq 2 (by decide +kernel)) (by decide +kernel)
  (by decide +kernel) [q 1, q 2] [q 1, q 0]
  (fun k s => (said0R k s).trans (by rw [show envR.suite = suite from rfl, said2R]; tauto))
  (fun k h => nomatch ((said0R k false).1 h.2).2)

end OrderExample

end Kyber.Props
