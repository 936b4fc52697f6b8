/-
Property C39 (`src/share/dkg/rabin/dkg.rs`): the distributed key of the Rabin DKG.
-/
import Verif.Lemmas.DkgRabinInv
import Verif.Props.DkgPedersen
import Verif.Spec.ToyDkgR

set_option linter.unusedSectionVars false

namespace Kyber.Props

open Kyber Kyber.Poly Kyber.Spec Kyber.VssR Kyber.DkgR
open Kyber.VssP (VssError EncryptedDeal validT context indices_map_some)
open Kyber.DkgP (pick mem_pick pick_perm pick_nodup map_sum_perm)

variable {F G : Type} [Field F] [AddCommGroup G] [DecidableEq G]

section

variable [SMul F G]

instance : Nonempty (VssR.Deal F G) := ⟨⟨[], ⟨0, 0⟩, ⟨0, 0⟩, 0, []⟩⟩

instance : Nonempty (PubPoly G) := ⟨⟨none, []⟩⟩

theorem thresholdR {E : Env F G} {x : F} {pubs : List G} {t : Nat} {secret : F} {fD gD : List F}
    {d0 : Dkg F G} (h0 : newDistKeyGenerator E x pubs t secret fD gD = .ok d0) :
    2 ≤ t ∧ t ≤ pubs.length := by
  obtain ⟨-, h2, -⟩ := newDistKeyGenerator_ok h0
  obtain ⟨_, _, -, -, -, -, -, hv, -⟩ := VssR.newDealer_ok h2
  simp only [validT, Bool.and_eq_true, decide_eq_true_eq] at hv
  exact hv.1

theorem run_t {E : Env F G} {x : F} {pubs : List G} {t : Nat} {secret : F} {fD gD : List F}
    {d0 : Dkg F G} (h0 : newDistKeyGenerator E x pubs t secret fD gD = .ok d0)
    (cs : List (QCall F G)) : (qRun E d0 cs).t = t := by
  obtain ⟨-, -, -, -, -, h1, -⟩ := newDistKeyGenerator_ok h0
  exact (qRun_evolves E d0 cs).t.trans h1

/-- A generator exists exactly when the own key is among the participants and `2 ≤ t ≤ n`. -/
theorem C39_new_generator_ok (E : Env F G) (x : F) (pubs : List G) (t : Nat) (secret : F)
    (fD gD : List F) (hf : t - 1 ≤ fD.length) (hg : t ≤ gD.length) (hn : pubs.length < 2 ^ 32) :
    (∃ d, newDistKeyGenerator E x pubs t secret fD gD = .ok d) ↔
      x • E.suite.base ∈ pubs ∧ 2 ≤ t ∧ t ≤ pubs.length := by
  constructor
  · rintro ⟨d, hd⟩
    refine ⟨?_, thresholdR hd⟩
    obtain ⟨h1, -⟩ := newDistKeyGenerator_ok hd
    rw [List.findIdx?_eq_some_iff_getElem] at h1
    obtain ⟨hl, he, -⟩ := h1
    simp only [decide_eq_true_eq] at he
    rw [← he]; exact List.getElem_mem hl
  · rintro ⟨hm, ht⟩
    obtain ⟨dl, hdl⟩ := newDealer_some E x secret pubs t fD gD (by
      simp only [validT, Bool.and_eq_true, decide_eq_true_eq]
      exact ⟨ht, Nat.mod_eq_of_lt (by omega)⟩) hf hg
    unfold newDistKeyGenerator
    simp only
    cases hi : pubs.findIdx? (fun p => decide (p = x • E.suite.base)) with
    | none =>
      rw [List.findIdx?_eq_none_iff] at hi
      simpa using hi _ hm
    | some i =>
      simp only [hdl, Res.mapErr_ok, Res.bind_ok]
      exact ⟨_, rfl⟩

/-- C39: `finished` is true exactly when at least `t` dealers are qualified and the commitments of
every qualified dealer are known; the order in which the maps are visited does not matter. -/
theorem C39_finished_iff (E : Env F G) (x : F) (pubs : List G) (t : Nat) (secret : F)
    (fD gD : List F) (d0 : Dkg F G)
    (h0 : newDistKeyGenerator E x pubs t secret fD gD = .ok d0) (cs : List (QCall F G))
    (ord : MapOrder) (Q : Finset Nat) :
    let d := qRun E d0 cs
    (∀ i, i ∈ Q ↔ QualifiedR d i) →
    (d.finished ord = true ↔ t ≤ Q.card ∧ ∀ i ∈ Q, ∃ p, d.commitments.get i = some p) := by
  intro d hQ
  have hn : d.verifiers.keys.Nodup := DkgR.reach_nodup h0 cs
  have hq : Q = qualSet d := by ext i; rw [hQ, mem_qualSet hn]
  obtain ⟨h1, h2⟩ := finishedLoop_spec d.commitments (ord.run d.verifiers) 0
  have hlen : (pick certifiedV (ord.run d.verifiers)).length = Q.card := by
    rw [hq, ← qual_length hn ord]; rfl
  have hmem : ∀ i, i ∈ pick certifiedV (ord.run d.verifiers) ↔ i ∈ Q := by
    intro i
    rw [hq, (pick_perm certifiedV (ord.perm d.verifiers)).mem_iff]
    unfold qualSet
    rw [List.mem_toFinset]
  have hcon : ∀ i, d.commitments.contains i = true ↔ ∃ p, d.commitments.get i = some p := by
    intro i; unfold AMap.contains; rw [Option.isSome_iff_exists]
  unfold Dkg.finished
  simp only [Bool.and_eq_true, decide_eq_true_eq]
  rw [run_t h0 cs]
  constructor
  · rintro ⟨g1, g2⟩
    rw [h2 g2, hlen, Nat.zero_add] at g1
    exact ⟨g1, fun i hi => (hcon i).1 (h1.1 g2 i ((hmem i).2 hi))⟩
  · rintro ⟨g1, g2⟩
    have g3 := h1.2 (fun i hi => (hcon i).2 (g2 i ((hmem i).1 hi)))
    exact ⟨by rw [h2 g3, hlen, Nat.zero_add]; exact g1, g3⟩

/-- C39: what `dist_key_share` returns. In every reachable state, for every order in which the map
is visited, it succeeds exactly when at least `t` dealers are qualified, the commitments of each of
them are known and all have the same length; then the share is the sum of the shares in the deals
of the qualified dealers, at the participant's index, and the commitments are the coefficientwise
sum. -/
theorem C39_dist_key_share_iff (E : Env F G) (x : F) (pubs : List G) (t : Nat) (secret : F)
    (fD gD : List F) (d0 : Dkg F G)
    (h0 : newDistKeyGenerator E x pubs t secret fD gD = .ok d0) (cs : List (QCall F G))
    (ord : MapOrder) (k : DistKeyShare F G) (Q : Finset Nat) :
    let d := qRun E d0 cs
    (∀ i, i ∈ Q ↔ QualifiedR d i) →
    (d.distKeyShare ord = .ok k ↔
      t ≤ Q.card ∧ ∃ (D : Nat → VssR.Deal F G) (P : Nat → PubPoly G) (len : Nat),
        (∀ i ∈ Q, HoldsDeal d i (D i) ∧ d.commitments.get i = some (P i) ∧
          (P i).commits.length = len) ∧
        k = { commits := (List.range len).map (fun j => ∑ i ∈ Q, (P i).commits.getD j 0),
              share := ⟨d0.index, ∑ i ∈ Q, (D i).secShare.v⟩ }) := by
  intro d hQ
  have hn : d.verifiers.keys.Nodup := DkgR.reach_nodup h0 cs
  have hq : Q = qualSet d := by ext i; rw [hQ, mem_qualSet hn]
  have ht : d.t = t := run_t h0 cs
  have ht2 := (thresholdR h0).1
  have hidx : d.index = d0.index := (qRun_evolves E d0 cs).index
  have hcert : d.certified ord = true ↔ t ≤ Q.card := by
    unfold Dkg.certified
    rw [decide_eq_true_eq, ht, qual_length hn ord, hq]
  have hperm := pick_perm certifiedV (ord.perm d.verifiers)
  have hlist : ∀ (g : Nat → F), ((pick certifiedV (ord.run d.verifiers)).map g).sum = ∑ i ∈ Q, g i := by
    intro g
    rw [(hperm.map g).sum_eq, hq, qualSet, List.sum_toFinset _ (pick_nodup _ hn)]
  have hlist' : ∀ (g : Nat → G), ((pick certifiedV (ord.run d.verifiers)).map g).sum = ∑ i ∈ Q, g i := by
    intro g
    rw [(hperm.map g).sum_eq, hq, qualSet, List.sum_toFinset _ (pick_nodup _ hn)]
  have hget : ∀ e ∈ ord.run d.verifiers, d.verifiers.get e.1 = some e.2 := by
    intro e he
    exact AMap.get_of_mem hn ((ord.perm _).subset he)
  have hin : ∀ i v, d.verifiers.get i = some v → certifiedV v = true → i ∈ Q := by
    intro i v hv hc
    obtain ⟨a, ha, hc⟩ := (certifiedV_iff v).1 hc
    exact (hQ i).2 ⟨v, a, hv, ha, hc⟩
  have hunf : d.distKeyShare ord = .ok k ↔ t ≤ Q.card ∧ ∃ sh p,
      Dkg.keyLoop d.commitments (ord.run d.verifiers) 0 none = .ok (sh, some p) ∧
        k = ⟨p.commits, ⟨d.index, sh⟩⟩ := by
    unfold Dkg.distKeyShare
    by_cases hc : d.certified ord = true
    · rw [if_neg (by simp [hc])]
      simp only [Res.bind_eq_ok, Res.unwrap_eq_ok, Res.ok.injEq]
      constructor
      · rintro ⟨⟨sh, p'⟩, h1, p, h2, rfl⟩
        simp only at h2
        subst h2
        exact ⟨hcert.1 hc, sh, p, h1, rfl⟩
      · rintro ⟨-, sh, p, h1, rfl⟩
        exact ⟨_, h1, p, rfl, rfl⟩
    · rw [if_pos (by simpa using hc)]
      constructor
      · intro h; cases h
      · rintro ⟨h, -⟩; exact absurd (hcert.2 h) hc
  rw [hunf]
  refine and_congr_right (fun htQ => ?_)
  have hne : pick certifiedV (ord.run d.verifiers) ≠ [] := by
    intro h
    have hl : (d.qual ord).length = Q.card := by rw [qual_length hn ord, hq]
    have : d.qual ord = [] := h
    rw [this] at hl
    simp at hl; omega
  -- the loop when everything is there
  have hfwd : ∀ (D : Nat → VssR.Deal F G) (P : Nat → PubPoly G) (len : Nat),
      (∀ i ∈ Q, HoldsDeal d i (D i) ∧ d.commitments.get i = some (P i) ∧
          (P i).commits.length = len) →
      ∃ b, Dkg.keyLoop d.commitments (ord.run d.verifiers) 0 none =
        .ok (∑ i ∈ Q, (D i).secShare.v,
          some ⟨b, (List.range len).map (fun j => ∑ i ∈ Q, (P i).commits.getD j 0)⟩) := by
    intro D P len h
    obtain ⟨b, hb⟩ := keyLoop_none d.commitments D P len (ord.run d.verifiers) (by
      intro e he hc
      obtain ⟨h1, h2, h3⟩ := h e.1 (hin _ _ (hget e he) hc)
      obtain ⟨v, a, g1, g2, g3⟩ := h1
      rw [hget e he] at g1
      cases g1
      obtain ⟨a', ha', hc'⟩ := (certifiedV_iff e.2).1 hc
      rw [g2] at ha'; cases ha'
      exact ⟨by rw [deal_of_certified g2 hc', g3], h2, h3⟩) 0
    refine ⟨b, ?_⟩
    rw [hb, if_neg hne, zero_add, hlist]
    unfold sumPolys
    simp only [hlist']
  constructor
  · rintro ⟨sh, p, hk, rfl⟩
    obtain ⟨len, h1, -⟩ := keyLoop_inv _ _ _ _ _ hk
    have hD : ∀ i ∈ Q, ∃ dl q, HoldsDeal d i dl ∧ d.commitments.get i = some q ∧
        q.commits.length = len := by
      intro i hi
      obtain ⟨v, a, hv, ha, hc⟩ := (hQ i).1 hi
      obtain ⟨⟨dl, hdl⟩, q, hq1, hq2⟩ := h1 (i, v)
        ((ord.perm _).symm.subset (AMap.mem_of_get hv)) ((certifiedV_iff v).2 ⟨a, ha, hc⟩)
      rw [deal_of_certified ha hc] at hdl
      exact ⟨dl, q, ⟨v, a, hv, ha, hdl⟩, hq1, hq2⟩
    choose! D P hDP using hD
    obtain ⟨b, hb⟩ := hfwd D P len hDP
    rw [hk] at hb
    simp only [Res.ok.injEq, Prod.mk.injEq, Option.some.injEq] at hb
    exact ⟨D, P, len, hDP, by rw [hb.1, hb.2, hidx]⟩
  · rintro ⟨D, P, len, hDP, rfl⟩
    obtain ⟨b, hb⟩ := hfwd D P len hDP
    exact ⟨_, _, hb, by rw [hidx]⟩

/-- C39: the result does not depend on the iteration order. -/
theorem C39_order_independent (E : Env F G) (x : F) (pubs : List G) (t : Nat) (secret : F)
    (fD gD : List F) (d0 : Dkg F G)
    (h0 : newDistKeyGenerator E x pubs t secret fD gD = .ok d0) (cs : List (QCall F G))
    (ord ord' : MapOrder) (k : DistKeyShare F G) (h : (qRun E d0 cs).distKeyShare ord = .ok k) :
    (qRun E d0 cs).distKeyShare ord' = .ok k := by
  have hn : (qRun E d0 cs).verifiers.keys.Nodup := DkgR.reach_nodup h0 cs
  have hQ : ∀ i, i ∈ qualSet (qRun E d0 cs) ↔ QualifiedR (qRun E d0 cs) i := fun i => mem_qualSet hn
  rw [C39_dist_key_share_iff E x pubs t secret fD gD d0 h0 cs ord k _ hQ] at h
  rw [C39_dist_key_share_iff E x pubs t secret fD gD d0 h0 cs ord' k _ hQ]
  exact h

/-- C39: `dist_key_share` succeeds exactly when `finished` holds and the commitments of the
qualified dealers have the same length. -/
theorem C39_succeeds_iff (E : Env F G) (x : F) (pubs : List G) (t : Nat) (secret : F)
    (fD gD : List F) (d0 : Dkg F G)
    (h0 : newDistKeyGenerator E x pubs t secret fD gD = .ok d0) (cs : List (QCall F G))
    (ord ord' : MapOrder) :
    let d := qRun E d0 cs
    (∃ k, d.distKeyShare ord = .ok k) ↔
      d.finished ord' = true ∧ ∃ len, ∀ i p, QualifiedR d i → d.commitments.get i = some p →
        p.commits.length = len := by
  intro d
  have hn : d.verifiers.keys.Nodup := DkgR.reach_nodup h0 cs
  have hQ : ∀ i, i ∈ qualSet d ↔ QualifiedR d i := fun i => mem_qualSet hn
  have hfin := C39_finished_iff E x pubs t secret fD gD d0 h0 cs ord' (qualSet d) hQ
  have hkey := fun k => C39_dist_key_share_iff E x pubs t secret fD gD d0 h0 cs ord k (qualSet d) hQ
  rw [hfin]
  constructor
  · rintro ⟨k, hk⟩
    obtain ⟨ht, D, P, len, hDP, -⟩ := (hkey k).1 hk
    refine ⟨⟨ht, fun i hi => ⟨_, (hDP i hi).2.1⟩⟩, len, ?_⟩
    intro i p hq hp
    obtain ⟨-, h2, h3⟩ := hDP i ((hQ i).2 hq)
    rw [hp] at h2; cases h2; exact h3
  · rintro ⟨⟨ht, hall⟩, len, hlen⟩
    have hS : Setup E d := by
      have := setup_new h0
      exact this.step (qRun_evolves E d0 cs)
    have hD : ∀ i ∈ qualSet d, ∃ dl p, HoldsDeal d i dl ∧ d.commitments.get i = some p := by
      intro i hi
      obtain ⟨p, hp⟩ := hall i hi
      obtain ⟨v, a, hv, ha, hc⟩ := (hQ i).1 hi
      obtain ⟨a', dl, ha', hdl, -⟩ := hS.holds hv
      exact ⟨dl, p, ⟨v, a', hv, ha', hdl⟩, hp⟩
    choose! D P hDP using hD
    exact ⟨_, (hkey _).2 ⟨ht, D, P, len, fun i hi => ⟨(hDP i hi).1, (hDP i hi).2,
      hlen i _ ((hQ i).1 hi) (hDP i hi).2⟩, rfl⟩⟩

/-- C39: no reachable state makes `dist_key_share` panic. -/
theorem C39_no_panic (E : Env F G) (x : F) (pubs : List G) (t : Nat) (secret : F)
    (fD gD : List F) (d0 : Dkg F G)
    (h0 : newDistKeyGenerator E x pubs t secret fD gD = .ok d0) (cs : List (QCall F G))
    (ord : MapOrder) : (qRun E d0 cs).distKeyShare ord ≠ .panic := by
  set d := qRun E d0 cs with hd
  have hn : d.verifiers.keys.Nodup := DkgR.reach_nodup h0 cs
  have ht : d.t = t := run_t h0 cs
  have ht2 := (thresholdR h0).1
  have hadd : ∀ (p q : PubPoly G), p.add q ≠ .panic := by
    intro p q
    unfold PubPoly.add
    split <;> simp
  have hloop : ∀ (l : List (Nat × Verifier F G)) (sh : F) (p : Option (PubPoly G)),
      Dkg.keyLoop d.commitments l sh p ≠ .panic ∧
      ∀ r, Dkg.keyLoop d.commitments l sh p = .ok (r, none) → p = none ∧ pick certifiedV l = [] := by
    intro l
    induction l with
    | nil =>
      intro sh p
      unfold Dkg.keyLoop
      refine ⟨by simp, ?_⟩
      intro r hr
      simp only [Res.ok.injEq, Prod.mk.injEq] at hr
      exact ⟨hr.2, rfl⟩
    | cons e l ih =>
      obtain ⟨i, v⟩ := e
      intro sh p
      unfold Dkg.keyLoop
      cases hc : certifiedV v with
      | false => rw [if_pos rfl, pick_false hc]; exact ih sh p
      | true =>
        rw [if_neg (by simp)]
        cases v.deal with
        | none => exact ⟨by simp, by simp⟩
        | some dl =>
          simp only
          cases d.commitments.get i with
          | none => exact ⟨by simp, by simp⟩
          | some poly =>
            simp only
            cases p with
            | none =>
              refine ⟨(ih _ _).1, ?_⟩
              intro r hr
              exact absurd ((ih _ _).2 r hr).1 (by simp)
            | some q =>
              simp only
              cases ha : q.add poly with
              | err e => exact ⟨by simp, by simp⟩
              | panic => exact absurd ha (hadd q poly)
              | ok q' =>
                refine ⟨(ih _ _).1, ?_⟩
                intro r hr
                exact absurd ((ih _ _).2 r hr).1 (by simp)
  unfold Dkg.distKeyShare
  split
  · simp
  · rename_i hc
    intro h
    obtain ⟨h1, h2⟩ := hloop (ord.run d.verifiers) 0 none
    cases hk : Dkg.keyLoop d.commitments (ord.run d.verifiers) 0 none with
    | err e => rw [hk] at h; cases h
    | panic => exact h1 hk
    | ok r =>
      rw [hk] at h
      obtain ⟨sh, p⟩ := r
      cases p with
      | some p => cases h
      | none =>
        have := (h2 sh hk).2
        have hcc : d.certified ord = true := by simpa using hc
        unfold Dkg.certified at hcc
        rw [decide_eq_true_eq, ht] at hcc
        have hz : d.qual ord = [] := this
        rw [hz] at hcc
        simp at hcc; omega

end

section

variable [DistribSMul F G]

/-- C39: the share of each reachable state lies on its public polynomial, as long as no dealer was
reconstructed and nobody else's message posed as the participant's own deal. Arbitrary messages
otherwise. -/
theorem C39_share_on_commits (E : Env F G) (hlin : Lin F E.suite.base) (hP : E.prims.Lawful)
    (x : F) (pubs : List G) (t : Nat) (secret : F) (fD gD : List F) (d0 : Dkg F G)
    (h0 : newDistKeyGenerator E x pubs t secret fD gD = .ok d0)
    (hC : ∀ dl ∈ d0.dealer.deals, E.codec.dec (E.codec.enc dl) = some dl)
    (cs : List (QCall F G))
    (hown : NoForeignOwn d0.index cs) (ord : MapOrder) (k : DistKeyShare F G)
    (hk : (qRun E d0 cs).distKeyShare ord = .ok k)
    (hrec : ∀ i, QualifiedR (qRun E d0 cs) i → (qRun E d0 cs).reconstructed.get i = none) :
    k.share.i = d0.index ∧
    k.share.v • E.suite.base = pointVal k.commits ((k.share.i + 1 : Nat) : F) := by
  have hn : (qRun E d0 cs).verifiers.keys.Nodup := DkgR.reach_nodup h0 cs
  have hQ : ∀ i, i ∈ qualSet (qRun E d0 cs) ↔ QualifiedR (qRun E d0 cs) i := fun i => mem_qualSet hn
  have hci : CommitInv E (qRun E d0 cs) := by
    refine qRun_commit E hlin hP d0 hC (setup_new h0) (own_new h0) (dealerOk_new hlin h0) ?_ cs hown
    intro j p hp
    obtain ⟨-, -, -, -, -, -, -, h8, -⟩ := newDistKeyGenerator_ok h0
    rw [h8] at hp; cases hp
  obtain ⟨-, D, P, len, hDP, rfl⟩ :=
    (C39_dist_key_share_iff E x pubs t secret fD gD d0 h0 cs ord k _ hQ).1 hk
  refine ⟨rfl, ?_⟩
  simp only
  rw [pointVal_sum _ (fun i => (P i).commits) len (fun i hi => (hDP i hi).2.2), hlin.sum]
  refine Finset.sum_congr rfl (fun i hi => ?_)
  obtain ⟨h1, h2, -⟩ := hDP i hi
  obtain ⟨dl, g1, -, g3⟩ := hci i (P i) h2 (hrec i ((hQ i).1 hi))
  obtain ⟨v, a, e1, e2, e3⟩ := h1
  obtain ⟨v', a', e1', e2', e3'⟩ := g1
  rw [e1] at e1'; cases e1'
  rw [e2] at e2'; cases e2'
  rw [e3] at e3'; cases e3'
  rw [(qRun_evolves E d0 cs).index] at g3
  exact g3.symm

/-- C39: the same when some dealers were reconstructed: it is enough that the reconstructed
polynomial passes through the share in the participant's deal. -/
theorem C39_share_on_commits_reconstructed (E : Env F G) (hlin : Lin F E.suite.base) (hP : E.prims.Lawful)
    (x : F) (pubs : List G) (t : Nat) (secret : F) (fD gD : List F) (d0 : Dkg F G)
    (h0 : newDistKeyGenerator E x pubs t secret fD gD = .ok d0)
    (hC : ∀ dl ∈ d0.dealer.deals, E.codec.dec (E.codec.enc dl) = some dl)
    (cs : List (QCall F G))
    (hown : NoForeignOwn d0.index cs) (ord : MapOrder) (k : DistKeyShare F G)
    (hk : (qRun E d0 cs).distKeyShare ord = .ok k)
    (hrec : ∀ i dl p, QualifiedR (qRun E d0 cs) i → (qRun E d0 cs).reconstructed.get i ≠ none →
      HoldsDeal (qRun E d0 cs) i dl → (qRun E d0 cs).commitments.get i = some p →
      pointVal p.commits ((d0.index + 1 : Nat) : F) = dl.secShare.v • E.suite.base) :
    k.share.v • E.suite.base = pointVal k.commits ((k.share.i + 1 : Nat) : F) := by
  have hn : (qRun E d0 cs).verifiers.keys.Nodup := DkgR.reach_nodup h0 cs
  have hQ : ∀ i, i ∈ qualSet (qRun E d0 cs) ↔ QualifiedR (qRun E d0 cs) i := fun i => mem_qualSet hn
  have hci : CommitInv E (qRun E d0 cs) := by
    refine qRun_commit E hlin hP d0 hC (setup_new h0) (own_new h0) (dealerOk_new hlin h0) ?_ cs hown
    intro j p hp
    obtain ⟨-, -, -, -, -, -, -, h8, -⟩ := newDistKeyGenerator_ok h0
    rw [h8] at hp; cases hp
  obtain ⟨-, D, P, len, hDP, rfl⟩ :=
    (C39_dist_key_share_iff E x pubs t secret fD gD d0 h0 cs ord k _ hQ).1 hk
  simp only
  rw [pointVal_sum _ (fun i => (P i).commits) len (fun i hi => (hDP i hi).2.2), hlin.sum]
  refine Finset.sum_congr rfl (fun i hi => ?_)
  obtain ⟨h1, h2, -⟩ := hDP i hi
  by_cases hr : (qRun E d0 cs).reconstructed.get i = none
  · obtain ⟨dl, g1, -, g3⟩ := hci i (P i) h2 hr
    obtain ⟨v, a, e1, e2, e3⟩ := h1
    obtain ⟨v', a', e1', e2', e3'⟩ := g1
    rw [e1] at e1'; cases e1'
    rw [e2] at e2'; cases e2'
    rw [e3] at e3'; cases e3'
    rw [(qRun_evolves E d0 cs).index] at g3
    exact g3.symm
  · exact (hrec i _ _ ((hQ i).1 hi) hr h1 h2).symm

end

section

variable [SMul F G]

/-- C39: reconstruction. When the pending shares together with the new one are values of a
polynomial `f` with `t` coefficients at `t` different indices, the call that reaches `t` messages
installs the commitments of `f`. -/
theorem C39_reconstruct (q : Nat) [CharP F q] (E : Env F G) (ord : MapOrder) (d : Dkg F G)
    (rc : ReconstructCommits F) (f : List F) (hf : f.length = d.t) (ht : 0 < d.t)
    (hr : d.reconstructed.get rc.dealerIndex = none)
    (hc : d.commitments.get rc.dealerIndex = none)
    (pub : G) (hp : d.participants[rc.index]? = some pub)
    (hsig : Schnorr.verify E.suite pub (rc.hash E.suite) rc.signature = .ok ())
    (arr : List (ReconstructCommits F))
    (harr : (d.pendingReconstruct.get rc.dealerIndex).getD [] = arr)
    (hnew : ∀ r ∈ arr, r.index ≠ rc.index ∧ r.sessionId = rc.sessionId)
    (hgen : ∀ r ∈ arr ++ [rc], r.share = (⟨f⟩ : PriPoly F).eval r.share.i ∧ r.share.i < q)
    (hcount : d.t ≤ ((arr ++ [rc]).map (fun r => r.share.i)).toFinset.card) :
    let d' := (d.processReconstructCommits E ord rc).1
    (d.processReconstructCommits E ord rc).2 = .ok () ∧
    d'.commitments.get rc.dealerIndex = some ⟨some E.suite.base, f.map (· • E.suite.base)⟩ ∧
    d'.reconstructed.get rc.dealerIndex = some true ∧
    (∀ j, j ≠ rc.dealerIndex → d'.commitments.get j = d.commitments.get j) := by
  have hscan : Dkg.scanPending rc arr = none := by
    clear harr hgen hcount
    induction arr with
    | nil => rfl
    | cons r l ih =>
      unfold Dkg.scanPending
      have := hnew r (by simp)
      rw [if_neg this.1, if_neg (by simp [this.2])]
      exact ih (fun r hr => hnew r (by simp [hr]))
  have hlen : d.t ≤ (arr ++ [rc]).length := by
    refine hcount.trans ((List.toFinset_card_le _).trans (by simp))
  have hrecov : recoverPriPoly ord ((arr ++ [rc]).map (fun r => some r.share)) d.t = .ok ⟨f⟩ := by
    rw [← hf]
    refine C04_recover_pri_poly q ord f _ ?_ ?_ ?_ ?_
    · intro s hs
      obtain ⟨r, hr, he⟩ := List.mem_map.1 hs
      cases he
      rw [(hgen r hr).1, C01_eval_genuine]
    · intro i hi
      rw [indices_map_some, List.mem_toFinset] at hi
      obtain ⟨r, hr, rfl⟩ := List.mem_map.1 hi
      exact (hgen r hr).2
    · intro h0; rw [h0] at hf; simp at hf; omega
    · rw [hf]
      refine hcount.trans (le_of_eq ?_)
      rw [indices_map_some]
  have hrun : d.processReconstructCommits E ord rc =
      ({ d with
          commitments := d.commitments.insert rc.dealerIndex
            ((⟨f⟩ : PriPoly F).commit E.suite.base (some E.suite.base))
          reconstructed := d.reconstructed.insert rc.dealerIndex true
          pendingReconstruct := (d.pendingReconstruct.insert rc.dealerIndex (arr ++ [rc])).remove
            rc.dealerIndex }, .ok ()) := by
    unfold Dkg.processReconstructCommits
    rw [if_neg (by simp [AMap.contains, hr]), if_neg (by simp [AMap.contains, hc])]
    simp only [hp, hsig, harr, hscan]
    rw [if_pos hlen, hrecov]
  simp only [hrun]
  refine ⟨trivial, ?_, ?_, ?_⟩
  · rw [AMap.get_insert, if_pos rfl]; rfl
  · rw [AMap.get_insert, if_pos rfl]
  · intro j hj
    rw [AMap.get_insert, if_neg hj]

end

section

variable [DistribSMul F G]

/-- C39: the distributed key is the sum of the secrets of the qualified dealers, also when some
commitments were revealed by the dealer and others reconstructed: it is enough that the
commitments known for each qualified dealer are those of a polynomial with `t` coefficients. -/
theorem C39_key_is_sum (E : Env F G) (hlin : Lin F E.suite.base) (x : F) (pubs : List G) (t : Nat) (secret : F)
    (fD gD : List F) (d0 : Dkg F G)
    (h0 : newDistKeyGenerator E x pubs t secret fD gD = .ok d0) (cs : List (QCall F G))
    (ord : MapOrder) (Q : Finset Nat) (hQ : ∀ i, i ∈ Q ↔ QualifiedR (qRun E d0 cs) i)
    (htQ : t ≤ Q.card) (f : Nat → List F)
    (hf : ∀ i ∈ Q, (f i).length = t ∧ ∃ p, (qRun E d0 cs).commitments.get i = some p ∧
      p.commits = (f i).map (· • E.suite.base)) :
    ∃ k, (qRun E d0 cs).distKeyShare ord = .ok k ∧ k.commits.length = t ∧
      (∀ y : F, pointVal k.commits y = (∑ i ∈ Q, polyVal (f i) y) • E.suite.base) ∧
      k.commits.getD 0 0 = (∑ i ∈ Q, (f i).getD 0 0) • E.suite.base := by
  have ht2 := (thresholdR h0).1
  have hS : Setup E (qRun E d0 cs) := (setup_new h0).step (qRun_evolves E d0 cs)
  have hD : ∀ i ∈ Q, ∃ dl p, HoldsDeal (qRun E d0 cs) i dl ∧
      (qRun E d0 cs).commitments.get i = some p ∧ p.commits = (f i).map (· • E.suite.base) := by
    intro i hi
    obtain ⟨-, p, hp, hpc⟩ := hf i hi
    obtain ⟨v, a, hv, ha, hc⟩ := (hQ i).1 hi
    obtain ⟨a', dl, ha', hdl, -⟩ := hS.holds hv
    exact ⟨dl, p, ⟨v, a', hv, ha', hdl⟩, hp, hpc⟩
  choose! D P hDP using hD
  refine ⟨_, (C39_dist_key_share_iff E x pubs t secret fD gD d0 h0 cs ord _ Q hQ).2
    ⟨htQ, D, P, t, ?_, rfl⟩, by simp, ?_, ?_⟩
  · intro i hi
    obtain ⟨h1, h2, h3⟩ := hDP i hi
    exact ⟨h1, h2, by rw [h3, List.length_map, (hf i hi).1]⟩
  · intro y
    simp only
    rw [pointVal_sum _ (fun i => (P i).commits) t (fun i hi => by
      rw [(hDP i hi).2.2, List.length_map, (hf i hi).1]), hlin.sum]
    refine Finset.sum_congr rfl (fun i hi => ?_)
    rw [(hDP i hi).2.2, pointVal_map_smul _ hlin]
  · simp only
    rw [List.getD_eq_getElem?_getD, List.getElem?_map, List.getElem?_range (by omega)]
    simp only [Option.map_some, Option.getD_some]
    rw [hlin.sum]
    refine Finset.sum_congr rfl (fun i hi => ?_)
    rw [(hDP i hi).2.2]
    have hl := (hf i hi).1
    cases hfi : f i with
    | nil => rw [hfi] at hl; simp at hl; omega
    | cons a l => simp

end

section

variable [Module F G]

/-- C39: shares that lie on the same commitments recover, from any `t` of them, a secret whose
public key is the distributed key. -/
theorem C39_recover (q : Nat) [CharP F q] (ord : MapOrder) (S : Suite F G) (commits : List G)
    (t : Nat) (hl : commits.length ≤ t) (keys : List (DkgR.DistKeyShare F G))
    (hc : ∀ k ∈ keys, k.commits = commits)
    (hs : ∀ k ∈ keys, k.share.v • S.base = pointVal k.commits ((k.share.i + 1 : Nat) : F))
    (hi : ∀ k ∈ keys, k.share.i < q)
    (hcount : t ≤ (keys.map (fun k => k.share.i)).toFinset.card) :
    ∃ s, Poly.recoverSecret ord (keys.map (fun k => some k.share)) t = .ok s ∧
      s • S.base = commits.getD 0 0 := by
  obtain ⟨s, h1, h2⟩ := C33_recover q ord S commits t hl
    (keys.map (fun k => (⟨k.commits, k.share, []⟩ : DkgP.DistKeyShare F G)))
    (by intro k hk; obtain ⟨k', hk', rfl⟩ := List.mem_map.1 hk; exact hc k' hk')
    (by intro k hk; obtain ⟨k', hk', rfl⟩ := List.mem_map.1 hk; exact hs k' hk')
    (by intro k hk; obtain ⟨k', hk', rfl⟩ := List.mem_map.1 hk; exact hi k' hk')
    (by rw [List.map_map]; exact hcount)
  refine ⟨s, ?_, h2⟩
  rw [← h1, List.map_map]; rfl

end

/-! ## Cases -/

namespace DkgRCases

open Kyber.Toy

/-- Participant `i` of the group of three after the messages `s`. -/
def after (i : Nat) (s : List RMsg) : DkgR.Dkg (ZMod 11) (ZMod 11) :=
  qRun envR ((netR envR).D i) (s.map (RMsg.call envR (netR envR) 1 MapOrder.id i))

/-- All deals and responses at participant 1. -/
def first1 : List RMsg := [.deal 2, .resp 2 0, .deals, .deal 0, .resp 1 2, .resp 1 0, .resp 0 2, .timeout]

/-- All messages at participant 1. -/
def all1 : List RMsg := first1 ++ [.ownCommits, .commits 0, .commits 2]

/-- All messages at participant 2. -/
def all2 : List RMsg := [.deals, .deal 0, .deal 1, .resp 0 1, .resp 2 0, .resp 1 0, .resp 2 1, .ownCommits,
  .commits 1, .commits 0]

/-- Participant 0 is silent, participant 1 sets a timeout. -/
def two1 : List RMsg := [.deals, .deal 2, .resp 1 2, .timeout]

theorem start1 : DkgR.newDistKeyGenerator envR 5 [6, 10, 4] 2 1 [6] [3, 7] = .ok ((netR envR).D 1) := rfl

/-- `C39_new_generator_ok`: accepted, and refused for a foreign key and for threshold 1. -/
example : (∃ d, DkgR.newDistKeyGenerator envR 5 [6, 10, 4] 2 1 [6] [3, 7] = .ok d) ∧
    ¬ (∃ d, DkgR.newDistKeyGenerator envR 1 [6, 10, 4] 2 1 [6] [3, 7] = .ok d) ∧
    ¬ (∃ d, DkgR.newDistKeyGenerator envR 5 [6, 10, 4] 1 1 [] [3] = .ok d) := by
  refine ⟨?_, ?_, ?_⟩
  all_goals
    rw [C39_new_generator_ok envR _ _ _ _ _ _ (by decide) (by decide) (by decide)]
    decide +kernel

/-- `C39_finished_iff`, `C39_dist_key_share_iff`, `C39_succeeds_iff`: the same dealers are qualified before and after the
second phase, only then is the participant finished and gets the key, the same for every iteration order
(`C39_order_independent`); a qualified set of two is not finished either without commitments. -/
example : qualSet (after 1 first1) = {0, 1, 2} ∧ (after 1 first1).finished MapOrder.id = false ∧
    qualSet (after 1 all1) = {0, 1, 2} ∧ (after 1 all1).finished MapOrder.rev = true ∧
    (after 1 all1).distKeyShare MapOrder.rev =
      .ok ⟨[(7 + 1 + 4) * 2, (5 + 6 + 9) * 2], ⟨1, (7 + 1 + 4) + (5 + 6 + 9) * 2⟩⟩ ∧
    (after 1 all1).distKeyShare MapOrder.id = (after 1 all1).distKeyShare MapOrder.rev ∧
    qualSet (after 1 two1) = {1, 2} ∧ (after 1 two1).finished MapOrder.id = false := by
  decide +kernel

/-- `C39_no_panic` in a state without any message. -/
example : (after 1 []).distKeyShare MapOrder.id ≠ .panic :=
  C39_no_panic envR _ _ _ _ _ _ _ start1 [] MapOrder.id

/-- `C39_share_on_commits`: the share of participant 1, all hypotheses shown. -/
example : ∀ k, (after 1 all1).distKeyShare MapOrder.rev = .ok k →
    k.share.v • envR.suite.base = pointVal k.commits ((k.share.i + 1 : Nat) : ZMod 11) := by
  intro k hk
  refine (C39_share_on_commits envR (Lin.of_module _) prims_lawful _ _ _ _ _ _ _ start1
    (fun dl _ => codecR_lawful dl) _ ?_ MapOrder.rev k hk ?_).2
  · intro dd k h
    simp [all1, first1, RMsg.call, RNet.dealMsg] at h
    rcases h with h | h <;> (rw [h.1]; decide +kernel)
  · intro i _
    have : (after 1 all1).reconstructed = [] := by decide +kernel
    show (after 1 all1).reconstructed.get i = none
    rw [this]; rfl

/-- `C39_recover`: participants 1 and 2 recover the sum of the secrets. -/
example : ∃ k k', (after 1 all1).distKeyShare MapOrder.rev = .ok k ∧
    (after 2 all2).distKeyShare MapOrder.id = .ok k' ∧ k.commits = k'.commits ∧
    Poly.recoverSecret MapOrder.id [some k.share, some k'.share] 2 = .ok (7 + 1 + 4) :=
  ⟨⟨[(7 + 1 + 4) * 2, (5 + 6 + 9) * 2], ⟨1, (7 + 1 + 4) + (5 + 6 + 9) * 2⟩⟩,
    ⟨[(7 + 1 + 4) * 2, (5 + 6 + 9) * 2], ⟨2, (7 + 1 + 4) + (5 + 6 + 9) * 3⟩⟩, by decide +kernel⟩

/-- `C39_share_on_commits_reconstructed` in the same run, where nothing was reconstructed. -/
example : ∀ k, (after 1 all1).distKeyShare MapOrder.rev = .ok k →
    k.share.v • envR.suite.base = pointVal k.commits ((k.share.i + 1 : Nat) : ZMod 11) := by
  intro k hk
  refine C39_share_on_commits_reconstructed envR (Lin.of_module _) prims_lawful _ _ _ _ _ _ _ start1
    (fun dl _ => codecR_lawful dl) _ ?_ MapOrder.rev k hk ?_
  · intro dd k h
    simp [all1, first1, RMsg.call, RNet.dealMsg] at h
    rcases h with h | h <;> (rw [h.1]; decide +kernel)
  · intro i _ _ _ h
    have : (after 1 all1).reconstructed = [] := by decide +kernel
    exact absurd (show (after 1 all1).reconstructed.get i = none by rw [this]; rfl) h

/-- `C39_key_is_sum`: the polynomials `7 + 5 X`, `1 + 6 X`, `4 + 9 X`. -/
example : ∃ k, (after 1 all1).distKeyShare MapOrder.id = .ok k ∧ k.commits.length = 2 := by
  have hn : (after 1 all1).verifiers.keys.Nodup := by decide +kernel
  have hq : qualSet (after 1 all1) = {0, 1, 2} := by decide +kernel
  obtain ⟨k, h1, h2, -⟩ := C39_key_is_sum envR (Lin.of_module _) _ _ _ _ _ _ _ start1
    (all1.map (RMsg.call envR (netR envR) 1 MapOrder.id 1)) MapOrder.id {0, 1, 2}
    (fun i => by rw [← hq]; exact mem_qualSet hn) (by decide)
    (fun i => [[7, 5], [1, 6], [4, 9]].getD i []) (by
      have key : ∀ i ∈ ({0, 1, 2} : Finset Nat), (([[7, 5], [1, 6], [4, 9]].getD i [] : List (ZMod 11))).length = 2 ∧
          ((after 1 all1).commitments.get i).map (fun p => p.commits) =
            some ((([[7, 5], [1, 6], [4, 9]].getD i [] : List (ZMod 11))).map (· • envR.suite.base)) := by
        decide +kernel
      intro i hi
      obtain ⟨k1, k2⟩ := key i hi
      obtain ⟨p, hp, hc⟩ := Option.map_eq_some_iff.1 k2
      exact ⟨k1, p, hp, hc⟩)
  exact ⟨k, h1, h2⟩

/-- The second share of `7 + 5 X` that a participant without commitments gets. -/
def pend : DkgR.Dkg (ZMod 11) (ZMod 11) :=
  { (netR envR).D 1 with pendingReconstruct := [(0, [⟨[1], 1, 0, ⟨1, 17⟩, []⟩])] }

/-- A share at index 2, signed by participant 2. -/
def rc2 : DkgR.ReconstructCommits (ZMod 11) :=
  let rc : DkgR.ReconstructCommits (ZMod 11) := ⟨[1], 2, 0, ⟨2, 22⟩, []⟩
  { rc with signature := Schnorr.sign envR.suite 4 2 (rc.hash envR.suite) }

/-- `C39_reconstruct`: with it the commitments of dealer 0 are those of `7 + 5 X`. -/
example : (pend.processReconstructCommits envR MapOrder.rev rc2).1.commitments.get 0 =
    some ⟨some 2, [7 * 2, 5 * 2]⟩ :=
  (C39_reconstruct 11 envR MapOrder.rev pend rc2 [7, 5] (by decide +kernel) (by decide +kernel) (by decide +kernel)
    (by decide +kernel) 4 (by decide +kernel) (by decide +kernel) [⟨[1], 1, 0, ⟨1, 17⟩, []⟩] (by decide +kernel)
    (by decide +kernel) (by decide +kernel) (by decide +kernel)).2.1

end DkgRCases

end Kyber.Props
