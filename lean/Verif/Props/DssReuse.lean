/-
Property C116: using a random distributed key for two messages (`dss_sig.rs`).
-/
import Verif.Props.Dss
import Mathlib.Tactic.LinearCombination

set_option linter.unusedSectionVars false

namespace Kyber.Props

open Kyber Kyber.Poly Kyber.Schnorr Kyber.Dss Kyber.Spec

variable {F G : Type} [Field F] [AddCommGroup G] [DecidableEq G] [SMul F G]

/-- C116, the intended property ("one random secret to be used only once", dss_sig.rs:7-8): of two
sessions with the same keys and different messages at most one issues a partial signature. -/
def C116_statement : Prop :=
  ∀ (F G : Type) [Field F] [AddCommGroup G] [Module F G] [DecidableEq G] (S : Suite F G)
    (secret : F) (participants : List G) (long random : DistKeyShare F G) (m₁ m₂ : Bytes) (t : Nat)
    (d₁ d₂ : DSS F G), m₁ ≠ m₂ →
    newDss S secret participants long random m₁ t = .ok d₁ →
    newDss S secret participants long random m₂ t = .ok d₂ →
    ¬ ((∃ k r, partialSig S k d₁ = .ok r) ∧ (∃ k r, partialSig S k d₂ = .ok r))

/-- C116 does not hold: nothing remembers that the random key has been used. -/
theorem C116_violated : ¬ C116_statement := by
  intro H
  refine H _ _ Toy.suite 5 [10] ⟨⟨0, 3⟩, [6]⟩ ⟨⟨0, 4⟩, [8]⟩ [1] [2] 1 _ _ (by decide) rfl rfl
    ⟨⟨1, _, rfl⟩, ⟨1, _, rfl⟩⟩

/-- C116: it is never refused. A session with a usable pair of keys signs whatever its message is,
also after the message (a public field) has been replaced, however often it has signed. -/
theorem C116_always_signs (S : Suite F G) (k : F) (d : DSS F G) (msg : Bytes) :
    (∃ r, partialSig S k { d with msg := msg } = .ok r) ↔
      d.random.commits ≠ [] ∧ d.long.commits ≠ [] := by
  unfold partialSig
  simp only [Res.bind_eq_ok, hashSig_ok]
  constructor
  · rintro ⟨r, h, ⟨R, A, hR, hA, -⟩, -⟩
    exact ⟨by rintro h0; simp [h0] at hR, by rintro h0; simp [h0] at hA⟩
  · rintro ⟨hr, hl⟩
    obtain ⟨R, rs, hr⟩ := List.exists_cons_of_ne_nil hr
    obtain ⟨A, as, hl⟩ := List.exists_cons_of_ne_nil hl
    split
    · exact ⟨_, _, ⟨R, A, by simp [hr], by simp [hl], rfl⟩, rfl⟩
    · exact ⟨_, _, ⟨R, A, by simp [hr], by simp [hl], rfl⟩, rfl⟩

/-- C116: two sessions with the same keys have the same identifier, whatever their messages. -/
theorem C116_same_session (S : Suite F G) (secret : F) (participants : List G)
    (long random : DistKeyShare F G) (m₁ m₂ : Bytes) (t : Nat) (d₁ d₂ : DSS F G)
    (h₁ : newDss S secret participants long random m₁ t = .ok d₁)
    (h₂ : newDss S secret participants long random m₂ t = .ok d₂) :
    d₁.sessionId = d₂.sessionId ∧ d₂ = { d₁ with msg := m₂ } := by
  unfold newDss at h₁ h₂
  simp only at h₁ h₂
  split at h₁
  · cases h₁
  · rename_i i hi
    rw [hi] at h₂
    simp only [Res.ok.injEq] at h₁ h₂
    subst h₁ h₂
    exact ⟨rfl, rfl⟩

/-- C116: two partial signatures of one participant with the same keys give away that
participant's share of the long-term key, unless the two challenges agree. -/
theorem C116_share_leaks (S : Suite F G) (k₁ k₂ : F) (d₁ d₂ e₁ e₂ : DSS F G)
    (ps₁ ps₂ : PartialSig F) (R A : G) (hR : d₁.random.commits.head? = some R)
    (hA : d₁.long.commits.head? = some A) (hl : d₂.long = d₁.long) (hr : d₂.random = d₁.random)
    (h₁ : partialSig S k₁ d₁ = .ok (ps₁, e₁)) (h₂ : partialSig S k₂ d₂ = .ok (ps₂, e₂))
    (hne : dssChallenge S R A d₁.msg ≠ dssChallenge S R A d₂.msg) :
    d₁.long.share.v = (ps₁.partialShare.v - ps₂.partialShare.v) /
      (dssChallenge S R A d₁.msg - dssChallenge S R A d₂.msg) ∧
    d₁.random.share.v = ps₁.partialShare.v - dssChallenge S R A d₁.msg * d₁.long.share.v := by
  obtain ⟨R₁, A₁, hR₁, hA₁, p₁, -⟩ := partialSig_ok S k₁ d₁ e₁ ps₁ h₁
  obtain ⟨R₂, A₂, hR₂, hA₂, p₂, -⟩ := partialSig_ok S k₂ d₂ e₂ ps₂ h₂
  rw [hr] at hR₂
  rw [hl] at hA₂
  obtain rfl := Option.some.inj (hR.symm.trans hR₁)
  obtain rfl := Option.some.inj (hR.symm.trans hR₂)
  obtain rfl := Option.some.inj (hA.symm.trans hA₁)
  obtain rfl := Option.some.inj (hA.symm.trans hA₂)
  rw [p₁, p₂, hl, hr]
  simp only
  change dssChallenge S R A d₁.msg ≠ dssChallenge S R A d₂.msg at hne
  have hne' := sub_ne_zero.2 hne
  refine ⟨?_, by unfold dssChallenge; ring⟩
  rw [eq_div_iff hne']
  unfold dssChallenge
  ring

/-- C116: the pairs of `t` participants give away the long-term secret itself: the differences are
shares from which `recover_secret` computes it. -/
theorem C116_secret_leaks (q : Nat) [CharP F q] (ord : MapOrder) (a : F) (as rs : List F)
    (h₁ h₂ : F) (hne : h₁ ≠ h₂) (pairs : List (Share F × F)) (t : Nat)
    (hv₁ : ∀ p ∈ pairs, p.1.v = h₁ * polyVal (a :: as) ((p.1.i + 1 : Nat) : F) +
      polyVal rs ((p.1.i + 1 : Nat) : F))
    (hv₂ : ∀ p ∈ pairs, p.2 = h₂ * polyVal (a :: as) ((p.1.i + 1 : Nat) : F) +
      polyVal rs ((p.1.i + 1 : Nat) : F))
    (hidx : ∀ p ∈ pairs, p.1.i < q) (hdeg : (a :: as).length ≤ t)
    (hcount : t ≤ (pairs.map (·.1.i)).toFinset.card) :
    recoverSecret ord (pairs.map fun p => some ⟨p.1.i, (p.1.v - p.2) / (h₁ - h₂)⟩) t = .ok a := by
  have hi : indices (pairs.map fun p => some (⟨p.1.i, (p.1.v - p.2) / (h₁ - h₂)⟩ : Share F)) =
      (pairs.map (·.1.i)).toFinset := by
    ext i
    rw [mem_indices]
    simp only [List.mem_map, List.mem_toFinset]
    constructor
    · rintro ⟨s, ⟨p, hp, hs⟩, rfl⟩
      obtain rfl := Option.some.inj hs
      exact ⟨p, hp, rfl⟩
    · rintro ⟨p, hp, rfl⟩
      exact ⟨_, ⟨p, hp, rfl⟩, rfl⟩
  refine C01_recover_secret q ord a as _ t ?_ ?_ hdeg (by rw [hi]; exact hcount)
  · intro s hs
    obtain ⟨p, hp, hs⟩ := List.mem_map.1 hs
    obtain rfl := Option.some.inj hs
    simp only [hv₁ p hp, hv₂ p hp]
    rw [div_eq_iff (sub_ne_zero.2 hne)]
    ring
  · intro i hi'
    rw [hi, List.mem_toFinset, List.mem_map] at hi'
    obtain ⟨p, hp, rfl⟩ := hi'
    exact hidx p hp


/-- Two participants, the polynomials `5 + 3 x` and `2 + 4 x`, the challenges 6 and 9. -/
example : recoverSecret MapOrder.id
    ([((⟨0, 6 * 8 + 6⟩ : Share (ZMod 11)), (9 * 8 + 6 : ZMod 11)), (⟨2, 6 * 3 + 3⟩, 9 * 3 + 3)].map
      fun p => some ⟨p.1.i, (p.1.v - p.2) / (6 - 9)⟩) 2 = .ok 5 :=
  C116_secret_leaks 11 MapOrder.id 5 [3] [2, 4] 6 9 (by decide) _ 2 (by decide +kernel) (by decide +kernel)
    (by decide +kernel) (by decide) (by decide +kernel)

/-- C116: even the two finished signatures do, to anybody who sees them: the scalars in their
second halves and the public challenges determine the long-term secret. -/
theorem C116_signatures_leak (q : Nat) [CharP F q] (ord₁ ord₂ : MapOrder) (S : Suite F G)
    (hS : S.Lawful) (hB : ∀ s : F, s • S.base = 0 → s = 0)
    (secret : F) (participants : List G) (hn : participants.length ≤ q)
    (a r : F) (as rs : List F) (t : Nat) (has : (a :: as).length = t) (hrs : (r :: rs).length = t)
    (longShare randomShare : Share F) (m₁ m₂ : Bytes) (d₁ d₂ : DSS F G)
    (hnew₁ : newDss S secret participants ⟨longShare, (a :: as).map (· • S.base)⟩
      ⟨randomShare, (r :: rs).map (· • S.base)⟩ m₁ t = .ok d₁)
    (hnew₂ : newDss S secret participants ⟨longShare, (a :: as).map (· • S.base)⟩
      ⟨randomShare, (r :: rs).map (· • S.base)⟩ m₂ t = .ok d₂)
    (hlong : longShare.v = polyVal (a :: as) ((d₁.index + 1 : Nat) : F))
    (hrandom : randomShare.v = polyVal (r :: rs) ((d₁.index + 1 : Nat) : F))
    (c₁ c₂ : List (DssCall F)) (n₁ : t ≤ (indices (dssRun S d₁ c₁).partials).card)
    (n₂ : t ≤ (indices (dssRun S d₂ c₂).partials).card) (s₁ s₂ : Bytes)
    (hs₁ : signature S ord₁ (dssRun S d₁ c₁) = .ok s₁)
    (hs₂ : signature S ord₂ (dssRun S d₂ c₂) = .ok s₂)
    (hne : dssChallenge S (r • S.base) (a • S.base) m₁ ≠ dssChallenge S (r • S.base) (a • S.base) m₂) :
    ∃ g₁ g₂, S.decS (s₁.drop S.pointLen) = some g₁ ∧ S.decS (s₂.drop S.pointLen) = some g₂ ∧
      a = (g₁ - g₂) / (dssChallenge S (r • S.base) (a • S.base) m₁ -
        dssChallenge S (r • S.base) (a • S.base) m₂) := by
  have hidx : d₂.index = d₁.index := by
    rw [(C116_same_session S secret participants _ _ m₁ m₂ t d₁ d₂ hnew₁ hnew₂).2]
  rw [C17_signature q ord₁ S hS.base_lin hB secret participants hn a r as rs t has hrs longShare
    randomShare m₁ d₁ hnew₁ hlong hrandom c₁ n₁] at hs₁
  rw [C17_signature q ord₂ S hS.base_lin hB secret participants hn a r as rs t has hrs longShare
    randomShare m₂ d₂ hnew₂ (by rw [hidx]; exact hlong) (by rw [hidx]; exact hrandom) c₂ n₂] at hs₂
  obtain rfl := Res.ok.inj hs₁
  obtain rfl := Res.ok.inj hs₂
  rw [List.drop_left' (hS.encG_length _), List.drop_left' (hS.encG_length _)]
  refine ⟨_, _, hS.decS_encS _, hS.decS_encS _, ?_⟩
  rw [eq_div_iff (sub_ne_zero.2 hne)]
  ring

/-- C116, what holds, first: a partial signature for another message is not taken into a session
with the same keys, unless the challenges agree (or the participant's share is zero). The
equation in the exponent is the only check that keeps it out: the signature and the session
identifier are right. -/
theorem C116_not_mixed (S : Suite F G) (hS : S.Lawful) (hB : ∀ s : F, s • S.base = 0 → s = 0)
    (k : F) (d e e' : DSS F G)
    (ps : PartialSig F) (as rs : List F) (R A : G) (hR : (rs.map (· • S.base)).head? = some R)
    (hA : (as.map (· • S.base)).head? = some A)
    (hdl : d.long.commits = as.map (· • S.base)) (hdr : d.random.commits = rs.map (· • S.base))
    (hel : e.long.commits = as.map (· • S.base)) (her : e.random.commits = rs.map (· • S.base))
    (hsid : e.sessionId = d.sessionId)
    (hpart : d.participants[e.index]? = some (e.secret • S.base))
    (hl : e.long.share.v = polyVal as ((e.index + 1 : Nat) : F))
    (hr : e.random.share.v = polyVal rs ((e.index + 1 : Nat) : F))
    (hfree : d.partialsIdx.contains e.index = false)
    (hk : S.canonG (S.encG (k • S.base)) = true ∧ S.small (k • S.base) = false)
    (hp : S.canonG (S.encG (e.secret • S.base)) = true ∧ S.small (e.secret • S.base) = false)
    (hps : partialSig S k e = .ok (ps, e')) :
    (∃ d', processPartialSig S d ps = .ok d') ↔
      dssChallenge S R A d.msg = dssChallenge S R A e.msg ∨ e.long.share.v = 0 := by
  obtain ⟨R', A', hR', hA', hsh, -⟩ := partialSig_ok S k e e' ps hps
  have hsig : ps.sessionId = e.sessionId ∧ ps.signature = sign S k e.secret
      (partialHash S ps.partialShare e.sessionId) := by
    unfold partialSig at hps
    simp only [Res.bind_eq_ok] at hps
    obtain ⟨h, -, hps⟩ := hps
    split at hps <;>
    · simp only [Res.ok.injEq, Prod.mk.injEq] at hps
      obtain ⟨rfl, -⟩ := hps
      exact ⟨rfl, rfl⟩
  rw [her] at hR'
  rw [hel] at hA'
  obtain rfl := Option.some.inj (hR.symm.trans hR')
  obtain rfl := Option.some.inj (hA.symm.trans hA')
  have hL := hS.base_lin
  have key : ∀ h h' x y : F, (h * x + y) • S.base = y • S.base + h' • (x • S.base) ↔
      h' = h ∨ x = 0 := by
    intro h h' x y
    rw [← hL.mul, ← hL.add]
    constructor
    · intro he
      have := smul_base_inj hL hB he
      have h0 : (h' - h) * x = 0 := by linear_combination -this
      rcases mul_eq_zero.1 h0 with h1 | h1
      · exact .inl (sub_eq_zero.1 h1)
      · exact .inr h1
    · rintro (rfl | rfl)
      · rw [add_comm]
      · simp
  constructor
  · rintro ⟨d', hd'⟩
    obtain ⟨pub, R₂, A₂, -, -, -, -, hR₂, hA₂, he, -⟩ := (processPartialSig_ok_iff S d d' ps).1 hd'
    rw [hdr] at hR₂ he
    rw [hdl] at hA₂ he
    obtain rfl := Option.some.inj (hR.symm.trans hR₂)
    obtain rfl := Option.some.inj (hA.symm.trans hA₂)
    rw [hsh] at he
    simp only [pointVal_map_smul _ hL, ← hl, ← hr] at he
    exact (key _ _ _ _).1 he
  · intro h
    refine ⟨_, (processPartialSig_ok_iff S d _ ps).2 ⟨e.secret • S.base, R, A, ?_, ?_, ?_, ?_, ?_, ?_,
      ?_, rfl⟩⟩
    · rw [hsh]; exact hpart
    · rw [hsig.1, hsig.2]
      exact C11_sign_verify S hS k e.secret _ hk.1 hk.2 hp.1 hp.2
    · rw [hsig.1, hsid]
    · rw [hsh]; exact hfree
    · rw [hdr]; exact hR
    · rw [hdl]; exact hA
    · rw [hsh, hdl, hdr]
      simp only [pointVal_map_smul _ hL, ← hl, ← hr]
      exact (key _ _ _ _).2 h

/-- The same session with other private shares. -/
def withShares (d : DSS F G) (a b : F) : DSS F G :=
  { d with long := ⟨⟨d.long.share.i, a⟩, d.long.commits⟩,
           random := ⟨⟨d.random.share.i, b⟩, d.random.commits⟩ }

/-- C116, what holds, second: all partial signatures of all participants for one message are
compatible with every long-term polynomial. For every other polynomial there is a random polynomial
with which every participant would have issued the same shares, so one message reveals nothing
beyond the public commitments. -/
theorem C116_one_message_hides_partial (S : Suite F G) (R A : G) (msg : Bytes)
    (as as' rs : List F) (hlen : as'.length = as.length) (hrs : rs.length = as.length) :
    ∃ rs' : List F, rs'.length = rs.length ∧
      ∀ (k : F) (d e : DSS F G) (ps : PartialSig F), d.msg = msg →
        d.random.commits.head? = some R → d.long.commits.head? = some A →
        d.long.share.v = polyVal as ((d.index + 1 : Nat) : F) →
        d.random.share.v = polyVal rs ((d.index + 1 : Nat) : F) →
        partialSig S k d = .ok (ps, e) →
        ∃ e', partialSig S k (withShares d (polyVal as' ((d.index + 1 : Nat) : F))
          (polyVal rs' ((d.index + 1 : Nat) : F))) = .ok (ps, e') := by
  set h := dssChallenge S R A msg with hh
  refine ⟨List.zipWith (· + ·) rs (List.zipWith (· + ·) (as.map (h * ·)) (as'.map (-h * ·))), ?_, ?_⟩
  · simp [hlen, hrs]
  · intro k d e ps hm hR hA hl hr hps
    have hv : h * polyVal as' ((d.index + 1 : Nat) : F) + polyVal (List.zipWith (· + ·) rs
        (List.zipWith (· + ·) (as.map (h * ·)) (as'.map (-h * ·)))) ((d.index + 1 : Nat) : F) =
        h * d.long.share.v + d.random.share.v := by
      rw [polyVal_zipWith_add (by simp [hlen, hrs]), polyVal_zipWith_add (by simp [hlen]),
        polyVal_map_mul, polyVal_map_mul, hl, hr]
      ring
    have hh2 : hashSig S d = .ok h := hashSig_ok.2 ⟨R, A, hR, hA, by rw [hh, hm]; rfl⟩
    have hh3 : ∀ a b, hashSig S (withShares d a b) = .ok h := fun a b => hh2
    unfold partialSig at hps ⊢
    rw [hh3]
    rw [hh2] at hps
    simp only [Res.bind_ok, withShares, hv] at hps ⊢
    split at hps
    · rename_i hsg
      simp only [Res.ok.injEq, Prod.mk.injEq] at hps
      obtain ⟨rfl, -⟩ := hps
      rw [if_pos hsg]
      exact ⟨_, rfl⟩
    · rename_i hsg
      simp only [Res.ok.injEq, Prod.mk.injEq] at hps
      obtain ⟨rfl, -⟩ := hps
      rw [if_neg hsg]
      exact ⟨_, rfl⟩

/-- Participants 0 and 2 of `exampleDss` sign two messages with the same random key; the shares are
computed from the partial signatures, and from them the long-term secret 3. -/
example :
    let p (i : Nat) (m : Bytes) : ZMod 11 := match partialSig Toy.suite 1 { exampleDss i with msg := m } with
      | .ok r => r.1.partialShare.v
      | _ => 0
    let h (m : Bytes) := dssChallenge Toy.suite 8 6 m
    h [1] ≠ h [2] ∧
    (p 0 [1] - p 0 [2]) * (h [1] - h [2])⁻¹ = 5 ∧ (p 2 [1] - p 2 [2]) * (h [1] - h [2])⁻¹ = 9 ∧
    recoverSecret MapOrder.id [some ⟨0, (5 : ZMod 11)⟩, some ⟨2, 9⟩] 2 = .ok 3 := by
  decide +kernel

/-- The two finished signatures of that group, and the long-term secret 3 from their scalars. -/
example :
    let ps (m : Bytes) : PartialSig (ZMod 11) :=
      match partialSig Toy.suite 1 { exampleDss 2 with msg := m } with
      | .ok r => r.1
      | _ => ⟨⟨0, 0⟩, [], []⟩
    let sig (m : Bytes) := signature Toy.suite MapOrder.id
      (dssRun Toy.suite { exampleDss 0 with msg := m } [.own 1, .recv (ps m)])
    let h (m : Bytes) := dssChallenge Toy.suite 8 6 m
    let g (m : Bytes) : ZMod 11 := 4 + h m * 3
    sig [1] = .ok (Toy.enc 8 ++ Toy.enc (g [1])) ∧ sig [2] = .ok (Toy.enc 8 ++ Toy.enc (g [2])) ∧
    Toy.suite.decS ((Toy.enc 8 ++ Toy.enc (g [2])).drop Toy.suite.pointLen) = some (g [2]) ∧
    (g [1] - g [2]) * (h [1] - h [2])⁻¹ = 3 := by
  decide +kernel

/-- `C116_same_session`, with three participants. -/
example (m₁ m₂ : Bytes) : ∃ d₁ d₂, newDss Toy.suite 3 [6, 10, 4] ⟨⟨0, 5⟩, [6, 4]⟩ ⟨⟨0, 7⟩, [8, 6]⟩ m₁ 2 = .ok d₁ ∧
    newDss Toy.suite 3 [6, 10, 4] ⟨⟨0, 5⟩, [6, 4]⟩ ⟨⟨0, 7⟩, [8, 6]⟩ m₂ 2 = .ok d₂ ∧ d₁.sessionId = d₂.sessionId :=
  ⟨_, _, rfl, rfl, (C116_same_session Toy.suite 3 [6, 10, 4] _ _ m₁ m₂ 2 _ _ rfl rfl).1⟩

/-- `C116_share_leaks`: the share 5 of participant 0 from its partial signatures for two messages. -/
example : ∃ ps₁ e₁ ps₂ e₂, partialSig Toy.suite 1 { exampleDss 0 with msg := [1] } = .ok (ps₁, e₁) ∧
    partialSig Toy.suite 1 { exampleDss 0 with msg := [2] } = .ok (ps₂, e₂) ∧
    (5 : ZMod 11) = (ps₁.partialShare.v - ps₂.partialShare.v) /
      (dssChallenge Toy.suite 8 6 [1] - dssChallenge Toy.suite 8 6 [2]) :=
  ⟨_, _, _, _, rfl, rfl, (C116_share_leaks Toy.suite 1 1 { exampleDss 0 with msg := [1] } { exampleDss 0 with msg := [2] }
    _ _ _ _ 8 6 (by decide +kernel) (by decide +kernel) rfl rfl rfl rfl (by decide +kernel)).1⟩

set_option maxRecDepth 100000 in
/-- `C116_not_mixed`: the partial signature of participant 2 for another message is refused. -/
example : ∃ ps e', partialSig Toy.suite 1 { exampleDss 2 with msg := [2] } = .ok (ps, e') ∧
    ¬ ∃ d', processPartialSig Toy.suite { exampleDss 0 with msg := [1] } ps = .ok d' := by
  refine ⟨_, _, rfl, fun h => ?_⟩
  have := (C116_not_mixed Toy.suite Toy.lawful Toy.base_inj 1 { exampleDss 0 with msg := [1] }
    { exampleDss 2 with msg := [2] } _ _ [3, 2] [4, 1] 8 6 (by decide +kernel) (by decide +kernel) (by decide +kernel)
    (by decide +kernel) (by decide +kernel) (by decide +kernel) (by decide +kernel) (by decide +kernel)
    (by decide +kernel) (by decide +kernel) (by decide +kernel) (by decide +kernel) (by decide +kernel) rfl).1 h
  revert this
  decide +kernel

end Kyber.Props
