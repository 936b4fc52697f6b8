/-
Property C148: the hashes of shares, of partial signatures and of signing sessions determine what was hashed
(`PriShare::hash`, `PubShare::hash`, `PartialSig::hash`, `session_id`; `src/share/poly.rs`, `src/sign/dss/dss_sig.rs`).

The hash function is not assumed injective. Each theorem asks that the two inputs it names do not collide.
-/
import Verif.Model.ShareHash
import Verif.Spec.Apart
import Verif.Props.DkgRabinBind
import Verif.Props.Dss
import Verif.Spec.ToyDkg

set_option linter.unusedSectionVars false

namespace Kyber.Props

open Kyber Kyber.Poly Kyber.Spec Kyber.Dss

variable {F G : Type} [Field F] [AddCommGroup G] [DecidableEq G] [SMul F G]

theorem u32le_mod (n : Nat) : u32le (n % 2 ^ 32) = u32le n := by
  unfold u32le
  have h1 : n % 2 ^ 32 % 256 = n % 256 := by omega
  have h2 : n % 2 ^ 32 / 256 % 256 = n / 256 % 256 := by omega
  have h3 : n % 2 ^ 32 / 65536 % 256 = n / 65536 % 256 := by omega
  have h4 : n % 2 ^ 32 / 16777216 % 256 = n / 16777216 % 256 := by omega
  rw [h1, h2, h3, h4]

theorem u32le_eq_iff (a b : Nat) : u32le a = u32le b ↔ a % 2 ^ 32 = b % 2 ^ 32 := by
  constructor
  · intro h
    rw [← u32le_mod a, ← u32le_mod b] at h
    exact u32le_inj (Nat.mod_lt _ (by norm_num)) (Nat.mod_lt _ (by norm_num)) h
  · intro h
    rw [← u32le_mod a, h, u32le_mod]

theorem encS_inj {S : Suite F G} (hS : S.Lawful) {a b : F} (h : S.encS a = S.encS b) : a = b := by
  have := hS.decS_encS a
  rw [h, hS.decS_encS] at this
  exact (Option.some.inj this).symm

theorem encS_u32 {S : Suite F G} (hS : S.Lawful) (s s' : Share F) :
    S.encS s.v ++ u32le s.i = S.encS s'.v ++ u32le s'.i ↔ s.v = s'.v ∧ s.i % 2 ^ 32 = s'.i % 2 ^ 32 := by
  constructor
  · intro h
    obtain ⟨h1, h2⟩ := List.append_inj h (by rw [hS.encS_length, hS.encS_length])
    exact ⟨encS_inj hS h1, (u32le_eq_iff _ _).1 h2⟩
  · rintro ⟨h1, h2⟩
    rw [h1, (u32le_eq_iff _ _).2 h2]

/-- C148, the intended property: shares with the same hash are the same, and sessions with the same identifier have the
same keys, if the hash has no collisions. -/
def C148_statement : Prop :=
  ∀ (F G : Type) (_ : Field F) (_ : AddCommGroup G) (_ : Module F G) (S : Suite F G) (_ : S.Lawful)
    (_ : Function.Injective S.hash),
    (∀ s s' : Share F, shareHash S s = shareHash S s' → s = s') ∧
    (∀ s s' : Share G, pubShareHash S s = pubShareHash S s' → s = s') ∧
    (∀ a b a' b' : DistKeyShare F G, sessionId S a b = sessionId S a' b' →
      a.commits = a'.commits ∧ b.commits = b'.commits)

/-- C148: exactly which private shares have the same hash. -/
theorem C148_pri_share_iff (S : Suite F G) (hS : S.Lawful) (s s' : Share F)
    (ha : Apart S (S.encS s.v ++ u32le s.i) (S.encS s'.v ++ u32le s'.i)) :
    shareHash S s = shareHash S s' ↔ s.v = s'.v ∧ s.i % 2 ^ 32 = s'.i % 2 ^ 32 := by
  rw [← encS_u32 hS]
  exact ⟨ha, fun h => by unfold shareHash; rw [h]⟩

/-- C148: exactly which public shares have the same hash. -/
theorem C148_pub_share_iff (S : Suite F G) (hS : S.Lawful) (s s' : Share G)
    (ha : Apart S (S.encG s.v ++ u32le s.i) (S.encG s'.v ++ u32le s'.i)) :
    pubShareHash S s = pubShareHash S s' ↔ s.v = s'.v ∧ s.i % 2 ^ 32 = s'.i % 2 ^ 32 := by
  constructor
  · intro h
    obtain ⟨h1, h2⟩ := List.append_inj (ha h) (by rw [hS.encG_length, hS.encG_length])
    exact ⟨encG_inj hS h1, (u32le_eq_iff _ _).1 h2⟩
  · rintro ⟨h1, h2⟩
    unfold pubShareHash
    rw [h1, (u32le_eq_iff _ _).2 h2]

/-- C148: exactly which partial signatures are signed over the same bytes: the share, up to its index modulo 2^32, and the
session are the same. -/
theorem C148_partial_sig_iff (S : Suite F G) (hS : S.Lawful) (s s' : Share F) (sid sid' : Bytes)
    (hl : (shareHash S s).length = (shareHash S s').length)
    (ho : Apart S (shareHash S s ++ sid) (shareHash S s' ++ sid'))
    (ha : Apart S (S.encS s.v ++ u32le s.i) (S.encS s'.v ++ u32le s'.i)) :
    partialHash S s sid = partialHash S s' sid' ↔ s.v = s'.v ∧ s.i % 2 ^ 32 = s'.i % 2 ^ 32 ∧ sid = sid' := by
  rw [← and_assoc, ← C148_pri_share_iff S hS s s' ha]
  constructor
  · intro h
    exact List.append_inj (ho h) hl
  · rintro ⟨h1, h2⟩
    unfold partialHash
    rw [h1, h2]

/-- C148: of two partial signatures that a signer takes, with at most 2^32 participants, the bytes signed determine the
share entirely. -/
theorem C148_accepted (S : Suite F G) (hS : S.Lawful) (d d' e e' : DSS F G) (ps ps' : PartialSig F)
    (hp : d.participants.length ≤ 2 ^ 32) (hp' : d'.participants.length ≤ 2 ^ 32)
    (h : processPartialSig S d ps = .ok e) (h' : processPartialSig S d' ps' = .ok e')
    (hl : (shareHash S ps.partialShare).length = (shareHash S ps'.partialShare).length)
    (ho : Apart S (shareHash S ps.partialShare ++ ps.sessionId) (shareHash S ps'.partialShare ++ ps'.sessionId))
    (ha : Apart S (S.encS ps.partialShare.v ++ u32le ps.partialShare.i)
      (S.encS ps'.partialShare.v ++ u32le ps'.partialShare.i))
    (heq : partialHash S ps.partialShare ps.sessionId = partialHash S ps'.partialShare ps'.sessionId) :
    ps.partialShare = ps'.partialShare ∧ d.sessionId = d'.sessionId := by
  have key : ∀ (d e : DSS F G) (ps : PartialSig F), processPartialSig S d ps = .ok e →
      ps.partialShare.i < d.participants.length ∧ ps.sessionId = d.sessionId := by
    intro d e ps h
    unfold processPartialSig at h
    rw [Res.bind_eq_ok] at h
    obtain ⟨pub, h1, h⟩ := h
    rw [Res.bind_eq_ok] at h
    obtain ⟨-, -, h⟩ := h
    refine ⟨?_, ?_⟩
    · by_contra hc
      rw [List.getElem?_eq_none (by omega)] at h1
      cases h1
    · by_contra hc
      rw [if_pos hc] at h
      cases h
  obtain ⟨h1, h2⟩ := key d e ps h
  obtain ⟨h3, h4⟩ := key d' e' ps' h'
  obtain ⟨a, b, c⟩ := (C148_partial_sig_iff S hS _ _ _ _ hl ho ha).1 heq
  rw [Nat.mod_eq_of_lt (by omega), Nat.mod_eq_of_lt (by omega)] at b
  refine ⟨?_, by rw [← h2, ← h4, c]⟩
  cases hs : ps.partialShare
  cases hs' : ps'.partialShare
  rw [hs, hs'] at a b
  simp only at a b
  rw [a, b]

theorem encG_flatten_eq {S : Suite F G} (hS : S.Lawful) (hp : 0 < S.pointLen) :
    ∀ l l' : List G, (l.map S.encG).flatten = (l'.map S.encG).flatten → l = l'
  | [], [], _ => rfl
  | [], b :: l', h => by
    have := congrArg List.length h
    simp only [List.map_nil, List.flatten_nil, List.length_nil, List.map_cons, List.flatten_cons, List.length_append,
      hS.encG_length] at this
    omega
  | a :: l, [], h => by
    have := congrArg List.length h
    simp only [List.map_nil, List.flatten_nil, List.length_nil, List.map_cons, List.flatten_cons, List.length_append,
      hS.encG_length] at this
    omega
  | a :: l, b :: l', h => by
    simp only [List.map_cons, List.flatten_cons] at h
    obtain ⟨h1, h2⟩ := List.append_inj h (by rw [hS.encG_length, hS.encG_length])
    rw [encG_inj hS h1, encG_flatten_eq hS hp l l' h2]

/-- C148: exactly which pairs of keys have the same session identifier: those whose commitments are the same when written
one after the other, wherever the first key ends. -/
theorem C148_session_iff (S : Suite F G) (hS : S.Lawful) (hp : 0 < S.pointLen) (a b a' b' : DistKeyShare F G)
    (ha : Apart S ((a.commits.map S.encG).flatten ++ (b.commits.map S.encG).flatten)
      ((a'.commits.map S.encG).flatten ++ (b'.commits.map S.encG).flatten)) :
    sessionId S a b = sessionId S a' b' ↔ a.commits ++ b.commits = a'.commits ++ b'.commits := by
  constructor
  · intro h
    have := ha h
    rw [← List.flatten_append, ← List.flatten_append, ← List.map_append, ← List.map_append] at this
    exact encG_flatten_eq hS hp _ _ this
  · intro h
    unfold sessionId
    rw [← List.flatten_append, ← List.flatten_append, ← List.map_append, ← List.map_append, h]

/-- What holds of C148 for sessions: with long-term keys of one threshold the identifier determines both keys. Missing:
keys of different thresholds (`C148_violated_session`). -/
theorem C148_session_partial (S : Suite F G) (hS : S.Lawful) (hp : 0 < S.pointLen) (a b a' b' : DistKeyShare F G)
    (hl : a.commits.length = a'.commits.length)
    (ha : Apart S ((a.commits.map S.encG).flatten ++ (b.commits.map S.encG).flatten)
      ((a'.commits.map S.encG).flatten ++ (b'.commits.map S.encG).flatten)) :
    sessionId S a b = sessionId S a' b' ↔ a.commits = a'.commits ∧ b.commits = b'.commits := by
  rw [C148_session_iff S hS hp a b a' b' ha]
  exact ⟨fun h => List.append_inj h hl, fun h => by rw [h.1, h.2]⟩

namespace ShareHashExample

open Kyber.Toy

/-- The toy suite with a hash that keeps its input. -/
def idSuite : Suite (ZMod 11) (ZMod 11) := { suite with hash := id }

theorem idSuite_lawful : idSuite.Lawful := by
  obtain ⟨a, b, c, d, e, f, g⟩ := lawful
  exact ⟨a, b, c, d, e, f, g⟩

theorem apart (x y : Bytes) : Apart idSuite x y := fun h => h

/-- `C148_pri_share_iff`, `C148_pub_share_iff`: two shares told apart, and two that are not. -/
example : shareHash idSuite ⟨1, 4⟩ ≠ shareHash idSuite ⟨2, 4⟩ ∧
    shareHash idSuite ⟨1, 4⟩ = shareHash idSuite ⟨1 + 2 ^ 32, 4⟩ ∧
    pubShareHash idSuite ⟨1, 4⟩ = pubShareHash idSuite ⟨1 + 2 ^ 32, 4⟩ :=
  ⟨fun h => by simpa using ((C148_pri_share_iff _ idSuite_lawful _ _ (apart _ _)).1 h).2,
   (C148_pri_share_iff _ idSuite_lawful _ _ (apart _ _)).2 ⟨rfl, by norm_num⟩,
   (C148_pub_share_iff _ idSuite_lawful _ _ (apart _ _)).2 ⟨rfl, by norm_num⟩⟩

/-- `C148_partial_sig_iff`: another session is signed over other bytes. -/
example : partialHash idSuite ⟨1, 4⟩ [7] ≠ partialHash idSuite ⟨1, 4⟩ [8] := fun h => by
  simpa using ((C148_partial_sig_iff idSuite idSuite_lawful _ _ _ _ rfl (apart _ _) (apart _ _)).1 h).2.2

/-- `C148_accepted`: the signers 0 and 1 both take the partial signature of participant 2. -/
example : ∃ e e', processPartialSig suite (exampleDss 0) examplePartial = .ok e ∧
    processPartialSig suite (exampleDss 1) examplePartial = .ok e' ∧
    (exampleDss 0).participants.length ≤ 2 ^ 32 ∧ (exampleDss 1).participants.length ≤ 2 ^ 32 ∧
    (exampleDss 0).sessionId = (exampleDss 1).sessionId := by
  have taken : ∀ r : Res DssError (DSS (ZMod 11) (ZMod 11)),
      (match r with | .ok _ => true | _ => false) = true → ∃ e, r = .ok e := by
    intro r h
    cases r with
    | ok e => exact ⟨e, rfl⟩
    | err _ => cases h
    | panic => cases h
  obtain ⟨e, he⟩ := taken (processPartialSig suite (exampleDss 0) examplePartial) (by decide +kernel)
  obtain ⟨e', he'⟩ := taken (processPartialSig suite (exampleDss 1) examplePartial) (by decide +kernel)
  exact ⟨e, e', he, he', by decide, by decide, (C148_accepted suite lawful _ _ _ _ _ _ (by decide) (by decide) he he' rfl
    (fun _ => rfl) (fun _ => rfl) rfl).2⟩

/-- `C148_session_iff`: keys of thresholds 2 and 1, and of thresholds 1 and 2, share an identifier. -/
theorem same_session : sessionId idSuite ⟨⟨0, 0⟩, [2, 4]⟩ ⟨⟨0, 0⟩, [6]⟩ =
    sessionId idSuite ⟨⟨0, 0⟩, [2]⟩ ⟨⟨0, 0⟩, [4, 6]⟩ :=
  (C148_session_iff _ idSuite_lawful (by decide) _ _ _ _ (apart _ _)).2 rfl

/-- `C148_session_partial`: keys of the same threshold do not. -/
example : sessionId idSuite ⟨⟨0, 0⟩, [2, 4]⟩ ⟨⟨0, 0⟩, [6]⟩ ≠
    sessionId idSuite ⟨⟨0, 0⟩, [2, 6]⟩ ⟨⟨0, 0⟩, [4]⟩ := fun h => by
  have := (C148_session_partial idSuite idSuite_lawful (by decide) ⟨⟨0, 0⟩, [2, 4]⟩ ⟨⟨0, 0⟩, [6]⟩
    ⟨⟨0, 0⟩, [2, 6]⟩ ⟨⟨0, 0⟩, [4]⟩ rfl (apart _ _)).1 h
  exact absurd this.1 (by decide)

end ShareHashExample

open ShareHashExample in
/-- C148 does not hold: the index is cut to 32 bits before it is hashed. -/
theorem C148_violated_index : ¬ C148_statement := by
  intro h
  have := (h (ZMod 11) (ZMod 11) _ _ _ idSuite idSuite_lawful (fun _ _ h => h)).1 ⟨1, 4⟩ ⟨1 + 2 ^ 32, 4⟩
    ((C148_pri_share_iff _ idSuite_lawful _ _ (apart _ _)).2 ⟨rfl, by norm_num⟩)
  have := congrArg Share.i this
  norm_num at this

open ShareHashExample in
/-- C148 does not hold: the identifier of a session does not tell where the commitments of the long-term key end. -/
theorem C148_violated_session : ¬ C148_statement := by
  intro h
  have := ((h (ZMod 11) (ZMod 11) _ _ _ idSuite idSuite_lawful (fun _ _ h => h)).2.2 _ _ _ _ same_session).1
  exact absurd this (by decide)

end Kyber.Props
