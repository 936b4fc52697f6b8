/-
Properties C01-C10: Shamir secret sharing (`src/share/poly.rs`).
-/
import Verif.Spec.Shamir
import Verif.Lemmas.Shamir
import Mathlib.Data.ZMod.Basic
import Mathlib.Algebra.Field.ZMod
import Mathlib.Tactic.NormNum.Prime

namespace Kyber.Props

open Kyber Kyber.Poly Kyber.Spec

variable {F G α : Type} [Field F]

instance fact11 : Fact (Nat.Prime 11) := ⟨by norm_num⟩

/-! ## C01: any t shares reconstruct the secret -/

/-- C01: from any list of genuine shares with at least `t` distinct indices (any order, holes,
repetitions), `recover_secret` returns the secret, for every map iteration order. -/
theorem C01_recover_secret (q : Nat) [CharP F q] (ord : MapOrder) (secret : F) (cs : List F)
    (shares : List (Option (Share F))) (t : Nat)
    (hgen : Genuine (secret :: cs) shares)
    (hidx : ∀ i ∈ indices shares, i < q)
    (hdeg : (secret :: cs).length ≤ t)
    (hcount : t ≤ (indices shares).card) :
    recoverSecret ord shares t = .ok secret := by
  rw [recoverSecret_eq ord shares t hcount,
    interpolate_xy q (secret :: cs) shares t hgen hidx hdeg hcount, eval_zero_toPoly]
  rfl

/-- C01: `PriPoly::eval` produces exactly the genuine share at each index. -/
theorem C01_eval_genuine (p : PriPoly F) (i : Nat) :
    p.eval i = ⟨i, polyVal p.coeffs ((i + 1 : Nat) : F)⟩ := by
  rw [← eval_v]; rfl

/-- C01, end to end: any selection of at least `t` distinct entries out of `p.shares n`, in any
order and with repetitions, gives back `p.secret`. -/
theorem C01_shares_recover (q : Nat) [CharP F q] (ord : MapOrder) (p : PriPoly F)
    (hp : p.coeffs ≠ []) (n : Nat) (hn : n ≤ q) (sel : List (Option (Share F)))
    (hsel : ∀ s, some s ∈ sel → some s ∈ p.shares n)
    (hcount : p.threshold ≤ (indices sel).card) :
    ∃ s, p.secret = .ok s ∧ recoverSecret ord sel p.threshold = .ok s := by
  obtain ⟨coeffs⟩ := p
  cases coeffs with
  | nil => simp at hp
  | cons secret cs =>
    refine ⟨secret, rfl, C01_recover_secret q ord secret cs sel _ ?_ ?_ (le_refl _) hcount⟩
    · intro s hs
      have := hsel s hs
      simp only [PriPoly.shares, List.mem_map, List.mem_range, Option.some.injEq] at this
      obtain ⟨i, -, rfl⟩ := this
      rw [C01_eval_genuine]
    · intro i hi
      obtain ⟨s, hs, rfl⟩ := mem_indices.1 hi
      have := hsel s hs
      simp only [PriPoly.shares, List.mem_map, List.mem_range, Option.some.injEq] at this
      obtain ⟨j, hj, rfl⟩ := this
      show j < q
      omega

example (ord : MapOrder) : ∃ s, (⟨[5, 1, 3]⟩ : PriPoly (ZMod 11)).secret = .ok s ∧
    recoverSecret ord [some ⟨4, (8 : ZMod 11)⟩, none, some ⟨0, 9⟩, some ⟨2, 2⟩] 3 = .ok s :=
  C01_shares_recover 11 ord ⟨[5, 1, 3]⟩ (by decide) 5 (by decide) _
    (by
      intro s hs
      simp only [List.mem_cons, Option.some.injEq, List.not_mem_nil, or_false, reduceCtorEq,
        false_or] at hs
      rcases hs with rfl | rfl | rfl <;> decide +kernel)
    (by decide +kernel)

omit [Field F] in
/-- `new_pri_poly` with a secret `s` builds a polynomial with `max 1 t` coefficients whose
secret is `s`. -/
theorem C01_new_pri_poly (t : Nat) (s : F) (draws : List F) (h : t - 1 ≤ draws.length) :
    ∃ p, newPriPoly t (some s) draws = some p ∧ p.threshold = max 1 t ∧ p.secret = .ok s := by
  refine ⟨⟨s :: draws.take (t - 1)⟩, by simp [newPriPoly, h], ?_, rfl⟩
  simp [PriPoly.threshold]; omega

/-- A concrete run: threshold 3 over Z/11, shares 4, 0, hole, 4 again, 2. -/
example : recoverSecret MapOrder.rev
    [some ⟨4, (8 : ZMod 11)⟩, some ⟨0, 9⟩, none, some ⟨4, 8⟩, some ⟨2, 2⟩] 3 = .ok 5 := by
  decide +kernel

/-- The hypotheses of `C01_recover_secret` hold for it. -/
example : Genuine [(5 : ZMod 11), 1, 3]
      [some ⟨4, (8 : ZMod 11)⟩, some ⟨0, 9⟩, none, some ⟨4, 8⟩, some ⟨2, 2⟩] ∧
    (∀ i ∈ indices [some ⟨4, (8 : ZMod 11)⟩, some ⟨0, 9⟩, none, some ⟨4, 8⟩, some ⟨2, 2⟩], i < 11) ∧
    3 ≤ (indices [some ⟨4, (8 : ZMod 11)⟩, some ⟨0, 9⟩, none, some ⟨4, 8⟩, some ⟨2, 2⟩]).card := by
  refine ⟨?_, by decide, by decide⟩
  intro s hs
  simp only [List.mem_cons, Option.some.injEq, List.not_mem_nil, or_false, reduceCtorEq,
    false_or] at hs
  rcases hs with rfl | rfl | rfl | rfl <;> decide +kernel

/-! ## C02: too few shares are refused -/

/-- C02 for `recover_secret`. -/
theorem C02_recover_secret_refuses (ord : MapOrder) (shares : List (Option (Share F))) (t : Nat)
    (h : (indices shares).card < t) :
    recoverSecret ord shares t = .err .notEnoughSharesForSecret := by
  have hl : (xy F shares t).1.length < t := by
    rw [xy_length]
    change (if t = 0 then (indices shares).card else min t (indices shares).card) < t
    split <;> omega
  unfold recoverSecret
  simp only [hl, if_true]

example (ord : MapOrder) : recoverSecret ord [some ⟨4, (8 : ZMod 11)⟩, none, some ⟨4, 8⟩, some ⟨2, 2⟩] 3 =
    .err .notEnoughSharesForSecret := C02_recover_secret_refuses ord _ 3 (by decide)

/-- C02 for `recover_commit`. -/
theorem C02_recover_commit_refuses [AddCommGroup G] [SMul F G] (ord : MapOrder)
    (shares : List (Option (Share G))) (t : Nat) (h : (indices shares).card < t) :
    recoverCommit (F := F) ord shares t = .err .notEnoughGoodPublics := by
  have hl : (xy F shares t).1.length < t := by
    rw [xy_length]
    change (if t = 0 then (indices shares).card else min t (indices shares).card) < t
    split <;> omega
  unfold recoverCommit
  simp only [hl, if_true]

example (ord : MapOrder) : recoverCommit (F := ZMod 11) ord
    [some ⟨4, (8 : ZMod 11)⟩, none, some ⟨4, 8⟩, some ⟨2, 2⟩] 3 = .err .notEnoughGoodPublics :=
  C02_recover_commit_refuses ord _ 3 (by decide)

/-- C02 for `recover_pri_poly`. -/
theorem C02_recover_pri_poly_refuses (ord : MapOrder) (shares : List (Option (Share F))) (t : Nat)
    (h : (indices shares).card < t) :
    recoverPriPoly ord shares t = .err .notEnoughSharesForPublic := by
  have hl : (xy F shares t).1.length ≠ t := by
    rw [xy_length]
    change (if t = 0 then (indices shares).card else min t (indices shares).card) ≠ t
    split <;> omega
  unfold recoverPriPoly
  simp only [hl, if_true, ne_eq, not_false_eq_true]

example (ord : MapOrder) : recoverPriPoly ord [some ⟨4, (8 : ZMod 11)⟩, none, some ⟨4, 8⟩, some ⟨2, 2⟩] 3 =
    .err .notEnoughSharesForPublic := C02_recover_pri_poly_refuses ord _ 3 (by decide)

/-- C02 for `recover_pub_poly`. -/
theorem C02_recover_pub_poly_refuses [AddCommGroup G] [SMul F G] (base : G) (ord : MapOrder)
    (shares : List (Option (Share G))) (t : Nat) (h : (indices shares).card < t) :
    recoverPubPoly (F := F) base ord shares t = .err .notEnoughGoodPublics := by
  have hl : (xy F shares t).1.length < t := by
    rw [xy_length]
    change (if t = 0 then (indices shares).card else min t (indices shares).card) < t
    split <;> omega
  unfold recoverPubPoly
  simp only [hl, if_true]

/-- Four copies of two shares are not three shares. -/
example : (indices [some ⟨4, (8 : ZMod 11)⟩, some ⟨0, 9⟩, some ⟨4, 8⟩, some ⟨0, 3⟩]).card < 3 ∧
    recoverSecret MapOrder.id [some ⟨4, (8 : ZMod 11)⟩, some ⟨0, 9⟩, some ⟨4, 8⟩, some ⟨0, 3⟩] 3 =
      .err .notEnoughSharesForSecret := by
  decide +kernel

/-! ## C03: order independence -/

/-- C03 for `recover_secret`: no assumption on the values of the shares. -/
theorem C03_recover_secret_order (ord ord' : MapOrder) (shares shares' : List (Option (Share F)))
    (t : Nat) (hp : (shares.filterMap id).Perm (shares'.filterMap id))
    (hd : DistinctIndices shares) :
    recoverSecret ord shares t = recoverSecret ord' shares' t := by
  have hi : indices shares = indices shares' := by
    unfold indices; exact List.toFinset_eq_of_perm _ _ (hp.map _)
  by_cases h : t ≤ (indices shares).card
  · rw [recoverSecret_eq ord shares t h, recoverSecret_eq ord' shares' t (by rw [hi] at h; exact h), xy_perm hp hd t]
  · rw [C02_recover_secret_refuses _ _ _ (by omega),
      C02_recover_secret_refuses _ _ _ (by rw [← hi]; omega)]

example (ord ord' : MapOrder) :
    recoverSecret ord [some ⟨4, (8 : ZMod 11)⟩, some ⟨0, 9⟩, some ⟨7, 1⟩] 2 =
    recoverSecret ord' [some ⟨7, 1⟩, none, some ⟨4, 8⟩, some ⟨0, 9⟩] 2 :=
  C03_recover_secret_order ord ord' _ _ 2 (by decide) (by unfold DistinctIndices; decide)

/-- C03 for `recover_commit`. -/
theorem C03_recover_commit_order [AddCommGroup G] [SMul F G] (ord ord' : MapOrder)
    (shares shares' : List (Option (Share G)))
    (t : Nat) (hp : (shares.filterMap id).Perm (shares'.filterMap id))
    (hd : DistinctIndices shares) :
    recoverCommit (F := F) ord shares t = recoverCommit (F := F) ord' shares' t := by
  have hi : indices shares = indices shares' := by
    unfold indices; exact List.toFinset_eq_of_perm _ _ (hp.map _)
  by_cases h : t ≤ (indices shares).card
  · rw [recoverCommit_eq ord shares t h, recoverCommit_eq ord' shares' t (by rw [hi] at h; exact h), xy_perm hp hd t]
  · rw [C02_recover_commit_refuses _ _ _ (by omega),
      C02_recover_commit_refuses _ _ _ (by rw [← hi]; omega)]

example (ord ord' : MapOrder) :
    recoverCommit (F := ZMod 11) ord [some ⟨4, (8 : ZMod 11)⟩, some ⟨0, 9⟩, some ⟨7, 1⟩] 2 =
    recoverCommit (F := ZMod 11) ord' [some ⟨7, 1⟩, none, some ⟨4, 8⟩, some ⟨0, 9⟩] 2 :=
  C03_recover_commit_order ord ord' _ _ 2 (by decide) (by unfold DistinctIndices; decide)

/-- C03 for `recover_pri_poly`. -/
theorem C03_recover_pri_poly_order (ord ord' : MapOrder) (shares shares' : List (Option (Share F)))
    (t : Nat) (hp : (shares.filterMap id).Perm (shares'.filterMap id))
    (hd : DistinctIndices shares) :
    recoverPriPoly ord shares t = recoverPriPoly ord' shares' t := by
  have hi : indices shares = indices shares' := by
    unfold indices; exact List.toFinset_eq_of_perm _ _ (hp.map _)
  by_cases h : t ≤ (indices shares).card
  · by_cases ht : 0 < t
    · obtain ⟨r, h1, h2, h3⟩ := recoverPriPoly_spec ord shares t h ht
      obtain ⟨r', h1', h2', h3'⟩ := recoverPriPoly_spec ord' shares' t (by rw [hi] at h; exact h) ht
      rw [xy_perm hp hd t, ← h3'] at h3
      have := toPoly_injective (h2.trans h2'.symm) h3
      rw [h1, h1', show r = ⟨r.coeffs⟩ from rfl, this]
    · have ht' : t = 0 := by omega
      subst ht'
      unfold recoverPriPoly
      rw [xy_perm hp hd 0]
      by_cases hx : (xy F shares' 0).1.length = 0
      · have hx' := List.length_eq_zero_iff.1 hx
        have r1 : ord.run (xy F shares' 0).1 = [] := by
          apply List.length_eq_zero_iff.1; rw [(ord.perm _).length_eq, hx]
        have r2 : ord'.run (xy F shares' 0).1 = [] := by
          apply List.length_eq_zero_iff.1; rw [(ord'.perm _).length_eq, hx]
        simp only [hx, r1, r2]
        rfl
      · simp only [hx, ne_eq, not_false_eq_true, if_true]
  · rw [C02_recover_pri_poly_refuses _ _ _ (by omega),
      C02_recover_pri_poly_refuses _ _ _ (by rw [← hi]; omega)]

/-- Inconsistent shares in two orders with a hole, two map orders: same answer. -/
example :
    (([some ⟨4, 8⟩, some ⟨0, 9⟩, some ⟨7, 1⟩] : List (Option (Share (ZMod 11)))).filterMap id).Perm
      (([some ⟨7, 1⟩, none, some ⟨4, 8⟩, some ⟨0, 9⟩] : List (Option (Share (ZMod 11)))).filterMap
        id) ∧
    DistinctIndices [some ⟨4, (8 : ZMod 11)⟩, some ⟨0, 9⟩, some ⟨7, 1⟩] ∧
    recoverSecret MapOrder.id [some ⟨4, (8 : ZMod 11)⟩, some ⟨0, 9⟩, some ⟨7, 1⟩] 2 =
      recoverSecret MapOrder.rev [some ⟨7, 1⟩, none, some ⟨4, 8⟩, some ⟨0, 9⟩] 2 := by
  refine ⟨by decide, ?_, by decide +kernel⟩
  unfold DistinctIndices; decide

/-- With a repeated index the order does matter: the property needs distinct indices. -/
example : recoverSecret MapOrder.id [some ⟨0, (1 : ZMod 11)⟩, some ⟨0, 2⟩, some ⟨1, 3⟩] 2 ≠
    recoverSecret MapOrder.id [some ⟨0, (2 : ZMod 11)⟩, some ⟨0, 1⟩, some ⟨1, 3⟩] 2 := by
  decide +kernel

/-! ## C04: the whole polynomial -/

/-- C04: `recover_pri_poly` returns exactly the coefficients. -/
theorem C04_recover_pri_poly (q : Nat) [CharP F q] (ord : MapOrder) (cs : List F)
    (shares : List (Option (Share F)))
    (hgen : Genuine cs shares) (hidx : ∀ i ∈ indices shares, i < q)
    (hne : cs ≠ []) (hcount : cs.length ≤ (indices shares).card) :
    recoverPriPoly ord shares cs.length = .ok ⟨cs⟩ := by
  have ht : 0 < cs.length := List.length_pos_iff.2 hne
  obtain ⟨r, h1, h2, h3⟩ := recoverPriPoly_spec ord shares cs.length hcount ht
  rw [interpolate_xy q cs shares cs.length hgen hidx (le_refl _) hcount] at h3
  rw [h1, show r = ⟨r.coeffs⟩ from rfl, toPoly_injective h2 h3]

example : recoverPriPoly MapOrder.rev
    [some ⟨4, (8 : ZMod 11)⟩, some ⟨0, 9⟩, none, some ⟨4, 8⟩, some ⟨2, 2⟩] 3 = .ok ⟨[5, 1, 3]⟩ := by
  decide +kernel

/-! ## C05: secrecy -/

/-- C05: at most `t - 1` shares are compatible with every secret. -/
theorem C05_no_secret_excluded (q : Nat) [CharP F q] (t : Nat) (S : Finset Nat)
    (hS : ∀ i ∈ S, i + 1 < q) (hcard : S.card < t) (observed : Nat → F) (secret : F) :
    ∃ p : PriPoly F, p.threshold = t ∧ p.secret = .ok secret ∧
      ∀ i ∈ S, (p.eval i).v = observed i := by
  obtain ⟨cs, h1, h2⟩ := exists_unique_poly q S hS observed secret t hcard
  exact ⟨⟨secret :: cs⟩, h1, rfl, fun i hi => by rw [eval_v]; exact h2 i hi⟩

/-- Two shares of three over Z/11: every secret is possible. -/
example (s : ZMod 11) : ∃ p : PriPoly (ZMod 11), p.threshold = 3 ∧ p.secret = .ok s ∧
    ∀ i ∈ ({0, 3} : Finset Nat), (p.eval i).v = 7 :=
  C05_no_secret_excluded 11 3 {0, 3} (by decide) (by decide) (fun _ => 7) s

/-- C05: with exactly `t - 1` shares there is exactly one polynomial for each secret. -/
theorem C05_unique (q : Nat) [CharP F q] (t : Nat) (S : Finset Nat)
    (hS : ∀ i ∈ S, i + 1 < q) (hcard : S.card + 1 = t) (observed : Nat → F) (secret : F) :
    ∃! p : PriPoly F, p.threshold = t ∧ p.secret = .ok secret ∧
      ∀ i ∈ S, (p.eval i).v = observed i := by
  obtain ⟨p, h1, h2, h3⟩ := C05_no_secret_excluded q t S hS (by omega) observed secret
  refine ⟨p, ⟨h1, h2, h3⟩, ?_⟩
  rintro ⟨l'⟩ ⟨h1', h2', h3'⟩
  obtain ⟨l⟩ := p
  cases l with
  | nil => simp [PriPoly.secret] at h2
  | cons c l => cases l' with
    | nil => simp [PriPoly.secret] at h2'
    | cons c' l' =>
      simp only [PriPoly.secret, List.head?_cons, Res.unwrap_some, Res.ok.injEq] at h2 h2'
      subst h2 h2'
      simp only [PriPoly.threshold] at h1 h1'
      congr 1
      exact eq_of_secret_and_values q S hS (h1'.trans h1.symm) (by omega)
        (fun i hi => by rw [← eval_v ⟨_⟩, ← eval_v ⟨_⟩, h3 i hi, h3' i hi])

example (s : ZMod 11) : ∃! p : PriPoly (ZMod 11), p.threshold = 3 ∧ p.secret = .ok s ∧
    ∀ i ∈ ({0, 3} : Finset Nat), (p.eval i).v = 7 :=
  C05_unique 11 3 {0, 3} (by decide) (by decide) (fun _ => 7) s

/-- C05, counting form: the polynomials of threshold `t` compatible with the observed shares
are equally many for any two secrets (an explicit bijection), so a uniformly chosen polynomial
makes the observation independent of the secret. -/
theorem C05_equally_likely (q : Nat) [CharP F q] (t : Nat) (S : Finset Nat)
    (hS : ∀ i ∈ S, i + 1 < q) (hcard : S.card < t) (observed : Nat → F) (s s' : F) :
    Nonempty ({p : PriPoly F // p.threshold = t ∧ p.secret = .ok s ∧
        ∀ i ∈ S, (p.eval i).v = observed i} ≃
      {p : PriPoly F // p.threshold = t ∧ p.secret = .ok s' ∧
        ∀ i ∈ S, (p.eval i).v = observed i}) := by
  obtain ⟨d, h1, h2, h3⟩ := C05_no_secret_excluded q t S hS hcard (fun _ => 0) (s' - s)
  exact ⟨secrecyEquiv S observed s s' t d h1 h2 h3⟩

example : (∀ i ∈ ({0, 3} : Finset Nat), i + 1 < 11) ∧ ({0, 3} : Finset Nat).card < 3 := by decide

/-! ## C06: commitments match shares -/

/-- C06: the public polynomial evaluated at `i` is the private share times the base point. -/
theorem C06_commit_eval [AddCommGroup G] [SMul F G] (base : G) (p : PriPoly F) (b : Option G)
    (hB : Lin F (b.getD base)) (hp : p.coeffs ≠ []) (i : Nat) :
    (p.commit base b).eval F i = .ok ⟨i, (p.eval i).v • b.getD base⟩ := by
  rw [eval_v]
  exact pubEval_map_smul b hp hB i

example : (PriPoly.commit (2 : ZMod 11) ⟨[(5 : ZMod 11), 1, 3]⟩ (some 4)).eval (ZMod 11) 4 = .ok ⟨4, 10⟩ :=
  (C06_commit_eval 2 ⟨[5, 1, 3]⟩ (some 4) (Lin.of_module _) (by decide) 4).trans (by decide +kernel)

/-- C06: the value of `PubPoly::eval` is the committed polynomial at `i + 1`; it panics exactly
on a polynomial without commitments. -/
theorem C06_pub_eval [AddCommGroup G] [SMul F G] (P : PubPoly G) (i : Nat) :
    P.eval F i = if P.commits = [] then .panic
      else .ok ⟨i, pointVal P.commits ((i + 1 : Nat) : F)⟩ := by
  by_cases h : P.commits = []
  · simp [PubPoly.eval, h]
  · rw [pubEval_eq P h, if_neg h]

/-- C06: in a vector space that is `Cs[0] + x Cs[1] + x^2 Cs[2] + ...` with `x = i + 1`. -/
theorem C06_pub_eval_sum [AddCommGroup G] [Module F G] (P : PubPoly G) (i : Nat) :
    P.eval F i = if P.commits = [] then .panic
      else .ok ⟨i, ∑ k ∈ Finset.range P.commits.length, ((i + 1 : Nat) : F) ^ k • P.commits.getD k 0⟩ := by
  rw [C06_pub_eval, pointVal_eq_sum]

/-- C06: the constant term of the public polynomial is the secret times the base point. -/
theorem C06_pub_commit [AddCommGroup G] [SMul F G] (base : G) (p : PriPoly F) (b : Option G) (s : F)
    (h : p.secret = .ok s) : (p.commit base b).commit = .ok (s • b.getD base) := by
  obtain ⟨cs⟩ := p
  cases cs with
  | nil => cases h
  | cons c cs =>
    simp only [PriPoly.secret, List.head?_cons, Res.unwrap_some, Res.ok.injEq] at h
    subst h
    rfl

example : (PriPoly.commit (2 : ZMod 11) ⟨[(5 : ZMod 11), 1, 3]⟩ none).commit = .ok 10 :=
  (C06_pub_commit 2 ⟨[5, 1, 3]⟩ none 5 rfl).trans (by decide +kernel)

/-- C06: the list of public shares is the list of private shares, each times the base point. -/
theorem C06_pub_shares [AddCommGroup G] [SMul F G] (base : G) (p : PriPoly F) (b : Option G)
    (hB : Lin F (b.getD base)) (hp : p.coeffs ≠ []) (n : Nat) :
    (p.commit base b).shares F n =
      .ok ((p.shares n).map (Option.map (fun s => ⟨s.i, s.v • b.getD base⟩))) := by
  unfold PubPoly.shares PriPoly.shares
  rw [List.map_map]
  generalize List.range n = l
  induction l with
  | nil => rfl
  | cons i l ih =>
    rw [List.mapM_cons, ih, C06_commit_eval base p b hB hp i]
    rfl

example : (PriPoly.commit (2 : ZMod 11) ⟨[(5 : ZMod 11), 1, 3]⟩ none).shares (ZMod 11) 3 =
    .ok [some ⟨0, 7⟩, some ⟨1, 5⟩, some ⟨2, 4⟩] :=
  (C06_pub_shares 2 ⟨[5, 1, 3]⟩ none (Lin.of_module _) (by decide) 3).trans (by decide +kernel)

/-- C06: a genuine share passes `check`. -/
theorem C06_check_genuine [AddCommGroup G] [SMul F G] [DecidableEq G] (base : G) (p : PriPoly F)
    (b : Option G) (hB : Lin F (b.getD base)) (hp : p.coeffs ≠ []) (i : Nat) :
    (p.commit base b).check base (p.eval i) = .ok true := by
  unfold PubPoly.check
  rw [show (p.eval i).i = i from rfl, C06_commit_eval base p b hB hp i]
  simp [PriPoly.commit]

example (i : Nat) : (PriPoly.commit (2 : ZMod 11) ⟨[(5 : ZMod 11), 1, 3]⟩ none).check 2
    ((⟨[5, 1, 3]⟩ : PriPoly (ZMod 11)).eval i) = .ok true :=
  C06_check_genuine 2 ⟨[5, 1, 3]⟩ none (Lin.of_module _) (by decide) i

/-- C06: if the base point is a generator of a prime order group (`s • B = 0` only for `s = 0`),
`check` accepts exactly the genuine value. -/
theorem C06_check_iff [AddCommGroup G] [SMul F G] [DecidableEq F] [DecidableEq G] (base : G) (p : PriPoly F)
    (b : Option G) (hl : Lin F (b.getD base)) (hp : p.coeffs ≠ [])
    (hB : ∀ s : F, s • b.getD base = 0 → s = 0) (s : Share F) :
    (p.commit base b).check base s = .ok (decide (s.v = polyVal p.coeffs ((s.i + 1 : Nat) : F))) := by
  unfold PubPoly.check
  rw [C06_commit_eval base p b hl hp s.i]
  rw [Res.bind_ok, Res.ok.injEq, decide_eq_decide, eval_v]
  show polyVal p.coeffs ((s.i + 1 : Nat) : F) • b.getD base = s.v • b.getD base ↔ _
  constructor
  · intro h
    have := hB _ (show (s.v - polyVal p.coeffs ((s.i + 1 : Nat) : F)) • b.getD base = 0 by
      rw [hl.sub, h, sub_self])
    exact sub_eq_zero.1 this
  · intro h; rw [h]

/-- Z/11 as a module over itself with base 2: the share of index 4 is checked. -/
example : (PriPoly.commit (2 : ZMod 11) ⟨[(5 : ZMod 11), 1, 3]⟩ none).check (2 : ZMod 11)
      (⟨4, 8⟩ : Share (ZMod 11)) = .ok true ∧
    (PriPoly.commit (2 : ZMod 11) ⟨[(5 : ZMod 11), 1, 3]⟩ none).check (2 : ZMod 11)
      (⟨4, 7⟩ : Share (ZMod 11)) = .ok false ∧
    (∀ s : ZMod 11, s • (2 : ZMod 11) = 0 → s = 0) := by
  decide +kernel

/-! ## C07: recovering the public commitment -/

/-- C07: from genuine public shares with at least `t` distinct indices `recover_commit` returns
`p(0) * B`. -/
theorem C07_recover_commit [AddCommGroup G] [SMul F G] (q : Nat) [CharP F q] (ord : MapOrder)
    (secret : F) (cs : List F) (B : G) (hB : Lin F B) (shares : List (Option (Share G))) (t : Nat)
    (hgen : GenuinePub (secret :: cs) B shares) (hidx : ∀ i ∈ indices shares, i < q)
    (hdeg : (secret :: cs).length ≤ t) (hcount : t ≤ (indices shares).card) :
    recoverCommit (F := F) ord shares t = .ok (secret • B) := by
  rw [recoverCommit_eq ord shares t hcount]
  congr 1
  have hy := yval_of_fun (F := F) shares t
    (fun k => polyVal (secret :: cs) ((k + 1 : Nat) : F) • B) (fun s hs => hgen s hs)
  have hint := interpolate_genuine (⟨secret :: cs⟩ : PriPoly F) (kset (xy F shares t).1)
    (xc_injOn q _ (fun i hi => hidx i (kset_subset shares t hi)))
    (by rw [card_kset]; show (secret :: cs).length ≤ _; split <;> omega)
    (fun k => polyVal (secret :: cs) ((k + 1 : Nat) : F)) (fun k _ => by rw [eval_v])
  have h0 := congrArg (Polynomial.eval 0) hint
  rw [eval_zero_toPoly, Lagrange.interpolate_apply, Polynomial.eval_finsetSum] at h0
  simp only [Polynomial.eval_mul, Polynomial.eval_C, List.headD_cons, ← lag0_eq_eval_basis] at h0
  rw [← h0, hB.sum]
  refine Finset.sum_congr rfl (fun k hk => ?_)
  rw [hy k hk, ← hB.mul, mul_comm]

example (ord : MapOrder) : recoverCommit (F := ZMod 11) ord
    [some ⟨4, (5 : ZMod 11)⟩, some ⟨0, 7⟩, none, some ⟨4, 5⟩, some ⟨2, 4⟩] 3 = .ok ((5 : ZMod 11) • 2) :=
  C07_recover_commit 11 ord 5 [1, 3] 2 (Lin.of_module _) _ 3
    (by
      intro s hs
      simp only [List.mem_cons, Option.some.injEq, List.not_mem_nil, or_false, reduceCtorEq,
        false_or] at hs
      rcases hs with rfl | rfl | rfl | rfl <;> decide +kernel)
    (by decide) (by decide) (by decide)

/-- C07, end to end: any selection of at least `t` distinct entries out of the public shares of a
committed polynomial, in any order and with repetitions, gives back `commit()`, its constant term. -/
theorem C07_shares_recover [AddCommGroup G] [SMul F G] (q : Nat) [CharP F q] (ord : MapOrder) (base : G)
    (p : PriPoly F) (b : Option G) (hB : Lin F (b.getD base)) (hp : p.coeffs ≠ []) (n : Nat) (hn : n ≤ q)
    (all sel : List (Option (Share G))) (hall : (p.commit base b).shares F n = .ok all)
    (hsel : ∀ s, some s ∈ sel → some s ∈ all) (hcount : p.threshold ≤ (indices sel).card) :
    ∃ P, (p.commit base b).commit = .ok P ∧ recoverCommit (F := F) ord sel p.threshold = .ok P := by
  rw [C06_pub_shares base p b hB hp n] at hall
  cases hall
  obtain ⟨coeffs⟩ := p
  cases coeffs with
  | nil => simp at hp
  | cons secret cs =>
    have hin : ∀ s : Share G, some s ∈ sel → ∃ i < n, s = ⟨i, ((⟨secret :: cs⟩ : PriPoly F).eval i).v • b.getD base⟩ := by
      intro s hs
      have := hsel s hs
      simp only [PriPoly.shares, List.map_map, List.mem_map, List.mem_range, Function.comp_apply,
        Option.map_some, Option.some.injEq] at this
      obtain ⟨i, hi, rfl⟩ := this
      exact ⟨i, hi, rfl⟩
    refine ⟨_, C06_pub_commit base _ b secret rfl, C07_recover_commit q ord secret cs _ hB sel _ ?_ ?_
      (le_refl _) hcount⟩
    · intro s hs
      obtain ⟨i, -, rfl⟩ := hin s hs
      simp only
      rw [eval_v]
    · intro i hi
      obtain ⟨s, hs, rfl⟩ := mem_indices.1 hi
      obtain ⟨j, hj, rfl⟩ := hin s hs
      show j < q
      omega

/-- Three of five public shares of `[5, 1, 3]` over the base point 2. -/
example : (PriPoly.commit (2 : ZMod 11) ⟨[(5 : ZMod 11), 1, 3]⟩ none).shares (ZMod 11) 5 =
      .ok [some ⟨0, 7⟩, some ⟨1, 5⟩, some ⟨2, 4⟩, some ⟨3, 4⟩, some ⟨4, 5⟩] ∧
    (PriPoly.commit (2 : ZMod 11) ⟨[(5 : ZMod 11), 1, 3]⟩ none).commit = .ok 10 ∧
    recoverCommit (F := ZMod 11) MapOrder.id [some ⟨4, (5 : ZMod 11)⟩, some ⟨1, 5⟩, none, some ⟨2, 4⟩] 3 =
      .ok 10 := by
  decide +kernel

/-- C07: public and private reconstruction agree. -/
theorem C07_matches_private [AddCommGroup G] [SMul F G] (q : Nat) [CharP F q]
    (ord ord' : MapOrder) (secret : F) (cs : List F) (B : G) (hB : Lin F B)
    (priv : List (Option (Share F))) (pub : List (Option (Share G))) (t : Nat)
    (hgen : Genuine (secret :: cs) priv) (hgenp : GenuinePub (secret :: cs) B pub)
    (hidx : ∀ i ∈ indices priv, i < q) (hidxp : ∀ i ∈ indices pub, i < q)
    (hdeg : (secret :: cs).length ≤ t) (hcount : t ≤ (indices priv).card)
    (hcountp : t ≤ (indices pub).card) :
    ∃ s, recoverSecret ord priv t = .ok s ∧ recoverCommit (F := F) ord' pub t = .ok (s • B) :=
  ⟨secret, C01_recover_secret q ord secret cs priv t hgen hidx hdeg hcount,
    C07_recover_commit q ord' secret cs B hB pub t hgenp hidxp hdeg hcountp⟩

example : recoverCommit (F := ZMod 11) MapOrder.rev
    [some ⟨4, (5 : ZMod 11)⟩, some ⟨0, 7⟩, none, some ⟨4, 5⟩, some ⟨2, 4⟩] 3 = .ok 10 := by
  decide +kernel

/-! ## C08: recovering the commitment polynomial -/

/-- C08, the full statement: from genuine public shares with at least `t` distinct indices,
`recover_pub_poly` returns the commitments of the polynomial. -/
def C08_statement : Prop :=
  ∀ (F G : Type) [Field F] [AddCommGroup G] [Module F G] (q : Nat) [CharP F q] (ord : MapOrder)
    (base B : G) (cs : List F) (shares : List (Option (Share G))),
    cs ≠ [] → GenuinePub cs B shares → (∀ i ∈ indices shares, i < q) →
    cs.length ≤ (indices shares).card →
    ∃ b, recoverPubPoly (F := F) base ord shares cs.length = .ok ⟨b, cs.map (fun c => c • B)⟩

/-- C08 is violated: public shares 1 and 2 of a polynomial with two coefficients make the call
panic. -/
theorem C08_violated : ¬ C08_statement := by
  intro h
  have h1 := h (ZMod 11) (ZMod 11) 11 MapOrder.id 1 1 [5, 1] [some ⟨1, 7⟩, some ⟨2, 8⟩] (by simp)
    (by
      intro s hs
      simp only [List.mem_cons, Option.some.injEq, List.not_mem_nil, or_false] at hs
      rcases hs with rfl | rfl <;> decide +kernel)
    (by decide) (by decide)
  obtain ⟨b, hb⟩ := h1
  have : recoverPubPoly (F := ZMod 11) 1 MapOrder.id [some ⟨1, (7 : ZMod 11)⟩, some ⟨2, 8⟩] 2 =
      .panic := by decide +kernel
  rw [show ([5, 1] : List (ZMod 11)).length = 2 from rfl, this] at hb
  cases hb

/-- C08, what is missing: whenever one of the indices `0 .. t-1` is not among the shares the
call panics, for every map order. -/
theorem C08_panics [AddCommGroup G] [SMul F G] (base : G) (ord : MapOrder)
    (shares : List (Option (Share G))) (t : Nat) (hcount : t ≤ (indices shares).card)
    (h : ∃ j < t, j ∉ indices shares) :
    recoverPubPoly (F := F) base ord shares t = .panic :=
  recoverPubPoly_panic base ord shares t hcount h

/-- Shares 1 and 5: index 0 is missing. -/
example (ord : MapOrder) : recoverPubPoly (F := ZMod 11) (1 : ZMod 11) ord
    [some ⟨1, (7 : ZMod 11)⟩, some ⟨5, 0⟩] 2 = .panic :=
  C08_panics 1 ord _ 2 (by decide) ⟨0, by decide, by decide⟩

/-- C08, proved part: if the indices `0 .. t-1` are all present, the commitments are returned
(any further shares are ignored). The base point recorded in the result is the public share of
index 0, not the base point of the commitments. -/
theorem C08_recover_pub_poly_partial [AddCommGroup G] [SMul F G] (q : Nat) [CharP F q]
    (ord : MapOrder) (base B : G) (hB : Lin F B) (cs : List F) (shares : List (Option (Share G)))
    (hne : cs ≠ []) (hgen : GenuinePub cs B shares) (hidx : ∀ i ∈ indices shares, i < q)
    (h : ∀ j < cs.length, j ∈ indices shares) :
    recoverPubPoly (F := F) base ord shares cs.length =
      .ok ⟨some (polyVal cs ((0 + 1 : Nat) : F) • B), cs.map (fun c => c • B)⟩ :=
  recoverPubPoly_ok q base ord cs B hB shares cs.length (List.length_pos_iff.2 hne) rfl hgen hidx h

example : recoverPubPoly (F := ZMod 11) 1 MapOrder.rev
    [some ⟨1, (7 : ZMod 11)⟩, some ⟨5, 0⟩, some ⟨0, 6⟩] 2 = .ok ⟨some 6, [5, 1]⟩ := by
  decide +kernel

/-! ## C09: homomorphic operations -/

/-- C09: sum of polynomials of equal length. -/
theorem C09_add (p q : PriPoly F) (h : p.threshold = q.threshold) :
    ∃ r, p.add q = .ok r ∧ r.threshold = p.threshold ∧
      ∀ i, (r.eval i).v = (p.eval i).v + (q.eval i).v := by
  refine ⟨_, add_ok h, ?_, fun i => ?_⟩
  · simp only [PriPoly.threshold] at h ⊢; simp [h]
  · rw [eval_v, eval_v, eval_v, polyVal_zipWith_add h]

example : ∃ r, (⟨[5, 1]⟩ : PriPoly (ZMod 11)).add ⟨[2, 7]⟩ = .ok r ∧ r.threshold = 2 ∧
    ∀ i, (r.eval i).v = ((⟨[5, 1]⟩ : PriPoly (ZMod 11)).eval i).v + ((⟨[2, 7]⟩ : PriPoly (ZMod 11)).eval i).v :=
  C09_add ⟨[5, 1]⟩ ⟨[2, 7]⟩ rfl

/-- C09: secrets add. -/
theorem C09_add_secret (p q r : PriPoly F) (h : p.add q = .ok r) (a b : F)
    (ha : p.secret = .ok a) (hb : q.secret = .ok b) : r.secret = .ok (a + b) := by
  obtain ⟨lp⟩ := p
  obtain ⟨lq⟩ := q
  cases lp with
  | nil => simp [PriPoly.secret] at ha
  | cons c lp => cases lq with
    | nil => simp [PriPoly.secret] at hb
    | cons d lq =>
      simp only [PriPoly.secret, List.head?_cons, Res.unwrap_some, Res.ok.injEq] at ha hb
      unfold PriPoly.add at h
      split at h
      · cases h
      · simp only [Res.ok.injEq] at h
        subst h ha hb
        rfl

example : (⟨[7, 8]⟩ : PriPoly (ZMod 11)).secret = .ok (5 + 2) :=
  C09_add_secret ⟨[5, 1]⟩ ⟨[2, 7]⟩ ⟨[7, 8]⟩ (by decide +kernel) 5 2 rfl rfl

/-- C09: `add` refuses operands of different lengths. -/
theorem C09_add_refuses (p q : PriPoly F) (h : p.threshold ≠ q.threshold) :
    p.add q = .err .wrongCoefficientsNumber := by
  unfold PriPoly.add; rw [if_pos h]

example : (⟨[5, 1, 3]⟩ : PriPoly (ZMod 11)).add ⟨[2, 7]⟩ = .err .wrongCoefficientsNumber :=
  C09_add_refuses _ _ (by decide)

/-- C09: product of non-empty polynomials. -/
theorem C09_mul (p q : PriPoly F) (hp : p.coeffs ≠ []) (hq : q.coeffs ≠ []) :
    ∃ r, p.mul q = .ok r ∧ r.threshold = p.threshold + q.threshold - 1 ∧
      ∀ i, (r.eval i).v = (p.eval i).v * (q.eval i).v := by
  obtain ⟨r, h1, h2, h3⟩ := mul_spec p q hp hq
  refine ⟨r, h1, h2, fun i => ?_⟩
  rw [eval_eq, eval_eq, eval_eq, h3, Polynomial.eval_mul]

example : ∃ r, (⟨[5, 1, 3]⟩ : PriPoly (ZMod 11)).mul ⟨[2, 7]⟩ = .ok r ∧ r.threshold = 4 ∧
    ∀ i, (r.eval i).v = ((⟨[5, 1, 3]⟩ : PriPoly (ZMod 11)).eval i).v * ((⟨[2, 7]⟩ : PriPoly (ZMod 11)).eval i).v :=
  C09_mul ⟨[5, 1, 3]⟩ ⟨[2, 7]⟩ (by decide) (by decide)

/-- C09: adding committed polynomials is committing to the sum. -/
theorem C09_pub_add [AddCommGroup G] [SMul F G] (base : G) (p q : PriPoly F) (b : Option G)
    (hB : Lin F (b.getD base)) (h : p.threshold = q.threshold) :
    ∃ r, p.add q = .ok r ∧ (p.commit base b).add (q.commit base b) = .ok (r.commit base b) := by
  refine ⟨_, add_ok h, ?_⟩
  unfold PubPoly.add
  rw [if_neg]
  · simp only [PriPoly.commit, Res.ok.injEq, PubPoly.mk.injEq, true_and]
    rw [List.zipWith_map, List.map_zipWith]
    simp only [hB.add]
  · simpa [PubPoly.threshold, PriPoly.commit, PriPoly.threshold] using h

example : (⟨[5, 1, 3]⟩ : PriPoly (ZMod 11)).mul ⟨[2, 7]⟩ = .ok ⟨[10, 4, 2, 10]⟩ ∧
    (⟨[5, 1, 3]⟩ : PriPoly (ZMod 11)).add ⟨[2, 7]⟩ = .err .wrongCoefficientsNumber ∧
    (⟨[5, 1]⟩ : PriPoly (ZMod 11)).add ⟨[2, 7]⟩ = .ok ⟨[7, 8]⟩ := by
  decide +kernel

/-! ## C10: equality tests -/

omit [Field F] in
/-- C10: `PriPoly::equal` is exact. -/
theorem C10_pri_equal [DecidableEq F] (p q : PriPoly F) : p.equal q = .ok (decide (p = q)) := by
  obtain ⟨l⟩ := p
  obtain ⟨l'⟩ := q
  unfold PriPoly.equal
  simp only [PriPoly.mk.injEq]
  by_cases h : l.length = l'.length
  · rw [if_neg (by simpa using h), foldl_zip_decide_eq h]
  · rw [if_pos h]
    congr 1
    symm; rw [decide_eq_false_iff_not]
    intro h'; exact h (by rw [h'])

/-- C10, the full statement for `PubPoly::equal`. -/
def C10_pub_statement : Prop :=
  ∀ (G : Type) [DecidableEq G] (p q : PubPoly G), p.equal q = .ok (decide (p.commits = q.commits))

/-- C10 is violated for public polynomials: a polynomial is "equal" to a longer one. -/
theorem C10_violated_longer : ¬ C10_pub_statement := by
  intro h
  have h1 := h Nat ⟨none, [1, 2]⟩ ⟨none, [1, 2, 3]⟩
  revert h1; decide

/-- C10 is violated for public polynomials: comparing with a shorter one panics. -/
theorem C10_violated_panic : ∃ p q : PubPoly Nat, p.equal q = .panic :=
  ⟨⟨none, [1, 2]⟩, ⟨none, [1]⟩, by decide⟩

/-- C10, proved part for `PubPoly::equal`: exact when the lengths agree. -/
theorem C10_pub_equal_partial [DecidableEq G] (p q : PubPoly G)
    (h : p.threshold = q.threshold) : p.equal q = .ok (decide (p.commits = q.commits)) :=
  pubEqual_same_length p q h

example : (⟨none, [1, 2]⟩ : PubPoly Nat).equal ⟨some 7, [1, 3]⟩ = .ok false :=
  (C10_pub_equal_partial ⟨none, [1, 2]⟩ ⟨some 7, [1, 3]⟩ rfl).trans (by decide)

/-- C10, the behaviour in all cases: `true` exactly for prefixes, and a panic exactly when the
argument is shorter. -/
theorem C10_pub_equal_prefix [DecidableEq G] (p q : PubPoly G) :
    p.equal q = if q.threshold < p.threshold then .panic
      else .ok (decide (p.commits <+: q.commits)) :=
  pubEqual_prefix p q

example : (⟨none, [1, 2]⟩ : PubPoly Nat).equal ⟨some 7, [1, 2]⟩ = .ok true := by decide

end Kyber.Props
