/-
The initial states of the Pedersen DKG.
-/
import Verif.Lemmas.DkgPedersen

set_option linter.unusedSectionVars false

namespace Kyber.DkgP

open Kyber.Poly Kyber.Spec Kyber.VssP

variable {F G : Type} [Field F] [AddCommGroup G] [SMul F G] [DecidableEq G]

theorem insert_new {α : Type} (m : AMap α) (k : Nat) (v : α) (h : k ∉ m.keys) :
    m.insert k v = m ++ [(k, v)] := by
  induction m with
  | nil => rfl
  | cons e m ih =>
    obtain ⟨a, b⟩ := e
    simp only [AMap.keys_cons, List.mem_cons, not_or] at h
    simp only [AMap.insert, if_neg (Ne.symm h.1), ih h.2, List.cons_append]

/-- The verifier for dealer `p` of a participant with key `x` and index `idx`. -/
def startVer (S : Suite F G) (x : F) (newNodes : List G) (t idx : Nat) (p : G) : Verifier F G :=
  { longterm := x, pubb := x • S.base, dealer := p, index := idx, verifiers := newNodes,
    hkdfContext := context S p newNodes,
    aggregator := { (newEmptyAggregator newNodes : Aggregator F G) with t := t } }

/-- The verifiers of a participant at the start. -/
def startVers (S : Suite F G) (c : Config F G) (idx : Nat) : AMap (Verifier F G) :=
  c.oldNodes.zipIdx.map (fun pi => (pi.2, startVer S c.longterm c.newNodes c.threshold idx pi.1))

theorem newVerifier_findPub (S : Suite F G) (x : F) (p : G) (newNodes : List G) (idx : Nat)
    (h : findPub newNodes (x • S.base) = (idx, true)) :
    newVerifier S x p newNodes = .ok
      { longterm := x, pubb := x • S.base, dealer := p, index := idx, verifiers := newNodes,
        hkdfContext := context S p newNodes, aggregator := newEmptyAggregator newNodes } := by
  unfold findPub at h
  unfold newVerifier
  simp only
  split at h
  · rename_i i hi
    cases h
    rw [hi]
  · cases h

/-- The loop body of `init_verifiers`. -/
def initStep (S : Suite F G) (c : Config F G) (acc : AMap (Verifier F G) × List G) (pi : G × Nat) :
    Res DkgError (AMap (Verifier F G) × List G) :=
  if pi.1 ∈ acc.2 then .err .duplicatePublicKeyInNewList
  else do
    let ver ← (newVerifier S c.longterm pi.1 c.newNodes).mapErr .vss
    .ok (acc.1.insert pi.2 { ver with aggregator := ver.aggregator.setThreshold c.threshold },
      pi.1 :: acc.2)

theorem initStep_ok (S : Suite F G) (c : Config F G) (idx : Nat)
    (h : findPub c.newNodes (c.longterm • S.base) = (idx, true))
    (acc : AMap (Verifier F G) × List G) (pi : G × Nat) (hp : pi.1 ∉ acc.2) :
    initStep S c acc pi = .ok (acc.1.insert pi.2
      (startVer S c.longterm c.newNodes c.threshold idx pi.1), pi.1 :: acc.2) := by
  unfold initStep
  rw [if_neg hp, newVerifier_findPub S _ _ _ idx h]
  rfl

theorem initLoop (S : Suite F G) (c : Config F G) (idx : Nat)
    (h : findPub c.newNodes (c.longterm • S.base) = (idx, true)) (l : List G) (k : Nat)
    (m : AMap (Verifier F G)) (seen : List G) (hm : ∀ j ∈ m.keys, j < k) :
    (l.zipIdx k).foldlM (initStep S c) (m, seen) =
      if l.Nodup ∧ (∀ p ∈ l, p ∉ seen) then
        .ok (m ++ (l.zipIdx k).map (fun pi => (pi.2, startVer S c.longterm c.newNodes c.threshold idx pi.1)),
          l.reverse ++ seen)
      else .err .duplicatePublicKeyInNewList := by
  induction l generalizing k m seen with
  | nil => simp
  | cons p l ih =>
    rw [List.zipIdx_cons, List.foldlM_cons]
    by_cases hp : p ∈ seen
    · rw [if_neg (by rintro ⟨-, h2⟩; exact h2 p (by simp) hp)]
      show initStep S c (m, seen) (p, k) >>= _ = _
      unfold initStep
      rw [if_pos hp]; rfl
    · rw [initStep_ok S c idx h _ _ hp, Res.bind_ok]
      have hk : k ∉ m.keys := fun hk => absurd (hm k hk) (lt_irrefl k)
      rw [insert_new _ _ _ hk, ih]
      · by_cases hc : l.Nodup ∧ ∀ q ∈ l, q ∉ p :: seen
        · rw [if_pos hc, if_pos]
          · simp
          · refine ⟨List.nodup_cons.2 ⟨?_, hc.1⟩, ?_⟩
            · intro hpl; exact hc.2 p hpl (by simp)
            · intro q hq
              rcases List.mem_cons.1 hq with rfl | hq
              · exact hp
              · intro hs; exact hc.2 q hq (by simp [hs])
        · rw [if_neg hc, if_neg]
          rintro ⟨h1, h2⟩
          refine hc ⟨(List.nodup_cons.1 h1).2, ?_⟩
          intro q hq hs
          rcases List.mem_cons.1 hs with rfl | hs
          · exact (List.nodup_cons.1 h1).1 hq
          · exact h2 q (by simp [hq]) hs
      · intro j hj
        simp only [AMap.keys, List.map_append, List.mem_append, List.map_cons, List.map_nil,
          List.mem_singleton] at hj
        rcases hj with hj | rfl
        · exact Nat.lt_succ_of_lt (hm j hj)
        · exact Nat.lt_succ_self _

/-- `init_verifiers` succeeds exactly if no dealer key is repeated. -/
theorem initVerifiers_eq (S : Suite F G) (c : Config F G) (idx : Nat)
    (h : findPub c.newNodes (c.longterm • S.base) = (idx, true)) :
    initVerifiers S c = if c.oldNodes.Nodup then .ok (startVers S c idx)
      else .err .duplicatePublicKeyInNewList := by
  have := initLoop S c idx h c.oldNodes 0 [] [] (by simp)
  unfold initVerifiers
  show (c.oldNodes.zipIdx.foldlM (initStep S c) ([], []) >>= fun r => Res.ok r.1) = _
  rw [this]
  by_cases hn : c.oldNodes.Nodup
  · rw [if_pos ⟨hn, by simp⟩, if_pos hn]; rfl
  · rw [if_neg (by rintro ⟨h1, -⟩; exact hn h1), if_neg hn]; rfl

theorem startVers_keys (S : Suite F G) (c : Config F G) (idx : Nat) :
    (startVers S c idx).keys = List.range c.oldNodes.length := by
  unfold startVers AMap.keys
  rw [List.map_map]
  show c.oldNodes.zipIdx.map Prod.snd = _
  rw [List.zipIdx_map_snd, List.range_eq_range']

theorem get_zipIdx_map {α β : Type} (l : List α) (k : Nat) (f : α → β) (i : Nat) :
    AMap.get ((l.zipIdx k).map (fun pi => (pi.2, f pi.1))) i =
      if k ≤ i then (l[i - k]?).map f else none := by
  induction l generalizing k with
  | nil => simp
  | cons a l ih =>
    rw [List.zipIdx_cons, List.map_cons, AMap.get_cons, ih]
    by_cases h : i = k
    · subst h; simp
    · rw [if_neg h]
      by_cases h2 : k + 1 ≤ i
      · rw [if_pos h2, if_pos (by omega)]
        have : i - k = i - (k + 1) + 1 := by omega
        rw [this, List.getElem?_cons_succ]
      · rw [if_neg h2, if_neg (by omega)]

theorem startVers_get (S : Suite F G) (c : Config F G) (idx i : Nat) :
    (startVers S c idx).get i =
      (c.oldNodes[i]?).map (startVer S c.longterm c.newNodes c.threshold idx) := by
  unfold startVers
  rw [get_zipIdx_map]; simp

/-- What `new_dist_key_handler` returns. -/
structure Started (S : Suite F G) (c : Config F G) (secret : F) (draws : List F) (d : Dkg F G) :
    Prop where
  longterm : d.c.longterm = c.longterm
  newNodes : d.c.newNodes = c.newNodes
  threshold : d.c.threshold = c.threshold
  oldThreshold : d.c.oldThreshold = c.oldThreshold
  share : d.c.share = c.share
  pubb : d.pubb = c.longterm • S.base
  resharing : d.isResharing = (c.share.isSome || c.publicCoeffs.isSome)
  nidx : findPub c.newNodes (c.longterm • S.base) = (d.nidx, d.newPresent)
  oidx : findPub d.c.oldNodes (c.longterm • S.base) = (d.oidx, d.oldPresent)
  receive : d.canReceive = d.newPresent
  fresh : d.isResharing = false → d.newPresent = true →
    d.c.oldNodes = c.newNodes ∧ d.canIssue = true ∧
    newDealer S c.longterm secret c.newNodes d.newT draws = .ok d.dealer
  reshare : d.isResharing = true → d.c.oldNodes = c.oldNodes ∧ c.oldNodes ≠ [] ∧
    c.oldThreshold ≠ 0 ∧ d.canIssue = c.share.isSome
  issue : ∀ sh, c.share = some sh →
    newDealer S c.longterm sh.share.v c.newNodes d.newT draws = .ok d.dealer
  newT : d.newT = if c.threshold ≠ 0 then c.threshold else minimumT c.newNodes.length
  receiver : d.isResharing = true → d.newPresent = true →
    ∃ coeffs, d.c.publicCoeffs = some coeffs ∧ d.dpub = ⟨some S.base, coeffs⟩ ∧
      d.oldT = coeffs.length ∧
      (c.publicCoeffs = some coeffs ∨
        c.publicCoeffs = none ∧ ∃ sh, c.share = some sh ∧ coeffs = sh.commits)
  verifiers : d.verifiers = if d.newPresent = true ∧ d.c.oldNodes.Nodup then startVers S d.c d.nidx else []
  start : d.oldAggregators = [] ∧ d.processed = false ∧ d.timeout = false

theorem newDistKeyHandler_ok {S : Suite F G} {c : Config F G} {secret : F} {draws : List F}
    {d : Dkg F G} (h : newDistKeyHandler S c secret draws = .ok d) : Started S c secret draws d := by
  unfold newDistKeyHandler at h
  rw [Res.ite_err_eq_ok] at h
  simp only at h
  rw [Res.ite_err_eq_ok, Res.ite_err_eq_ok, Res.ite_err_eq_ok] at h
  obtain ⟨-, h1, h2, h3, h⟩ := h
  rw [Res.bind_eq_ok] at h
  obtain ⟨⟨dealer, canIssue, oldNodes⟩, hr, h⟩ := h
  simp only at h
  set re := (c.share.isSome || c.publicCoeffs.isSome) with hre
  set nw := findPub c.newNodes (c.longterm • S.base) with hnw
  set newT := (if c.threshold ≠ 0 then c.threshold else minimumT c.newNodes.length) with hnewT
  -- what is known about the dealer
  have hdl : (re = false → nw.2 = true → oldNodes = c.newNodes ∧ canIssue = true ∧
      newDealer S c.longterm secret c.newNodes newT draws = .ok dealer) ∧
      (re = true → oldNodes = c.oldNodes ∧ canIssue = c.share.isSome) ∧
      (∀ sh, c.share = some sh →
        newDealer S c.longterm sh.share.v c.newNodes newT draws = .ok dealer) := by
    cases hs : c.share with
    | some sh =>
      rw [hs] at hr
      simp only [Res.bind_eq_ok, Res.mapErr_eq_ok, Res.ok.injEq, Prod.mk.injEq] at hr
      obtain ⟨dl, hdl, rfl, rfl, rfl⟩ := hr
      refine ⟨?_, fun _ => ⟨rfl, by simp⟩, ?_⟩
      · intro h; rw [hre, hs] at h; simp at h
      · intro sh' hsh; cases hsh; exact hdl
    | none =>
      rw [hs] at hr
      simp only at hr
      refine ⟨?_, ?_, by simp⟩
      · intro hf hp
        rw [if_pos ⟨hf, hp⟩] at hr
        simp only [Res.bind_eq_ok, Res.mapErr_eq_ok, Res.ok.injEq, Prod.mk.injEq] at hr
        obtain ⟨dl, hdl, rfl, rfl, rfl⟩ := hr
        exact ⟨rfl, rfl, hdl⟩
      · intro ht
        rw [if_neg (by rintro ⟨h, -⟩; rw [ht] at h; cases h)] at hr
        simp only [Res.ok.injEq, Prod.mk.injEq] at hr
        obtain ⟨-, rfl, rfl⟩ := hr
        exact ⟨rfl, rfl⟩
  obtain ⟨hdl1, hdl2, hdl3⟩ := hdl
  clear hr
  set p := prepare S c re nw dealer canIssue oldNodes newT with hp
  have f1 : p.c.longterm = c.longterm := by rw [hp]; unfold prepare; simp only; split <;> rfl
  have f2 : p.c.newNodes = c.newNodes := by rw [hp]; unfold prepare; simp only; split <;> rfl
  have f3 : p.c.threshold = c.threshold := by rw [hp]; unfold prepare; simp only; split <;> rfl
  have f4 : p.c.oldThreshold = c.oldThreshold := by rw [hp]; unfold prepare; simp only; split <;> rfl
  have f5 : p.c.share = c.share := by rw [hp]; unfold prepare; simp only; split <;> rfl
  have f6 : p.c.oldNodes = oldNodes := by rw [hp]; unfold prepare; simp only; split <;> rfl
  have hcoeff : re = true → nw.2 = true → ∃ coeffs, p.c.publicCoeffs = some coeffs ∧
      p.dpub = ⟨some S.base, coeffs⟩ ∧ p.oldT = coeffs.length ∧
      (c.publicCoeffs = some coeffs ∨
        c.publicCoeffs = none ∧ ∃ sh, c.share = some sh ∧ coeffs = sh.commits) := by
    intro g1 g2
    refine ⟨oldCoeffs { c with oldNodes := oldNodes }, ?_, ?_, ?_, ?_⟩
    · rw [hp]; unfold prepare; simp only; rw [if_pos (by rw [g1, g2]; rfl)]
    · rw [hp]; unfold prepare; simp only; rw [if_pos (by rw [g1, g2]; rfl)]
    · rw [hp]; unfold prepare; simp only; rw [if_pos (by rw [g1, g2]; rfl)]
    · unfold oldCoeffs
      cases hpc : c.publicCoeffs with
      | some cs => left; rfl
      | none =>
        right
        cases hs : c.share with
        | some sh => exact ⟨rfl, sh, rfl, rfl⟩
        | none => rw [hre, hpc, hs] at g1; cases g1
  have hfin : d = { p with verifiers :=
      if nw.2 = true ∧ p.c.oldNodes.Nodup then startVers S p.c nw.1 else [] } := by
    cases hpr : nw.2 with
    | true =>
      have hv := initVerifiers_eq S p.c nw.1 (by rw [f1, f2]; exact Prod.ext rfl hpr)
      rw [hpr, hv] at h
      by_cases hn : p.c.oldNodes.Nodup
      · rw [if_pos hn] at h
        simp only [Res.ok.injEq] at h
        rw [← h, if_pos ⟨rfl, hn⟩]
      · rw [if_neg hn] at h
        simp only [Res.ok.injEq] at h
        rw [← h, if_neg (by rintro ⟨-, h⟩; exact hn h)]
        rfl
    | false =>
      rw [hpr] at h
      simp only [Res.ok.injEq] at h
      rw [← h, if_neg (by simp)]
      rfl
  subst hfin
  refine ⟨f1, f2, f3, f4, f5, rfl, rfl, rfl, ?_, rfl, ?_, ?_, hdl3, rfl, hcoeff, rfl, rfl, rfl, rfl⟩
  · show findPub p.c.oldNodes _ = _
    rw [f6]; rfl
  · intro g1 g2
    have := hdl1 g1 g2
    exact ⟨f6.trans this.1, this.2⟩
  · intro g1
    have := hdl2 g1
    refine ⟨f6.trans this.1, ?_, ?_, this.2⟩
    · intro h0; exact h1 ⟨g1, h0⟩
    · intro h0; exact h2 ⟨g1, h0⟩

end Kyber.DkgP
