/-
Property C121: shares of different periods do not combine (`DistKeyShare::renew`,
`src/share/dkg/pedersen/dkg.rs`; deals of a resharing, `src/share/vss/pedersen/vss.rs`).
-/
import Verif.Props.DkgPedersenRenew
import Verif.Props.Shamir
import Verif.Lemmas.VssPedersenHonest

set_option linter.unusedSectionVars false

namespace Kyber.Props

open Kyber Kyber.Poly Kyber.Spec Kyber.VssP Kyber.DkgP

variable {F G : Type} [Field F] [AddCommGroup G] [DecidableEq G] [SMul F G]

/-! ## Renewals -/

/-- The key share of holder `i` when the key is shared with the polynomial `p`. -/
def keyShare (S : Suite F G) (p : PriPoly F) (i : Nat) : DistKeyShare F G :=
  { commits := (p.commit S.base (some S.base)).commits, share := p.eval i, privatePoly := [] }

/-- A holder renews its share with one renewal share after the other. -/
def renewals (S : Suite F G) (d : DistKeyShare F G) : List (DistKeyShare F G) →
    Res DkgError (DistKeyShare F G)
  | [] => .ok d
  | g :: gs => do
    let d ← d.renew S g
    renewals S d gs

/-- The sum of two polynomials with equally many coefficients. -/
private def plus (p z : PriPoly F) : PriPoly F := ⟨List.zipWith (· + ·) p.coeffs z.coeffs⟩

private theorem renew_keyShare (S : Suite F G) (hl : Lin F S.base) (p z : PriPoly F) (i : Nat)
    (hlen : z.threshold = p.threshold) (hz : z.secret = .ok 0) :
    (keyShare S p i).renew S (keyShare S z i) = .ok (keyShare S (plus p z) i) := by
  obtain ⟨cs, rfl⟩ : ∃ cs, z = ⟨0 :: cs⟩ := by
    obtain ⟨l⟩ := z
    cases l with
    | nil => simp [PriPoly.secret] at hz
    | cons a cs =>
      simp only [PriPoly.secret, List.head?_cons, Res.unwrap_some, Res.ok.injEq] at hz
      exact ⟨cs, by rw [hz]⟩
  obtain ⟨ps⟩ := p
  simp only [PriPoly.threshold] at hlen
  unfold DistKeyShare.renew DistKeyShare.publicKey
  simp only [keyShare, PriPoly.commit, List.map_cons, List.head?_cons, Res.unwrap_some, Res.bind_ok]
  rw [if_neg (by simp), if_neg (by simp [PriPoly.eval]), renew_loop, if_pos (by right; simp; simpa using hlen.ge)]
  simp only [Res.bind_ok, Res.ok.injEq, DistKeyShare.mk.injEq, and_true]
  constructor
  · apply List.ext_getElem
    · simp only [List.length_map, List.length_zipIdx, plus, List.length_zipWith]
      omega
    · intro n h1 h2
      simp only [List.length_map, List.length_zipIdx] at h1
      simp only [plus, List.getElem_map, List.getElem_zipIdx, List.getElem_zipWith, Option.getD_some, hl.add,
        zero_add]
      congr 1
      rw [← List.map_cons (f := fun c => c • S.base), List.getD_eq_getElem?_getD, List.getElem?_map,
        List.getElem?_eq_getElem (by omega)]
      rfl
  · have : ∀ a b : Share F, a.i = b.i → a.v = b.v → a = b := by
      rintro ⟨_, _⟩ ⟨_, _⟩ h1 h2
      simp only at h1 h2
      rw [h1, h2]
    apply this
    · rfl
    · simp only [eval_v, plus]
      rw [polyVal_zipWith_add hlen.symm]

/-- What is left to choose after the first period: renewals that lead from `h` through what is seen in the
later periods. -/
private theorem renewals_exist (q : Nat) [CharP F q] (S : Suite F G) (hl : Lin F S.base) (t : Nat) (secret : F)
    (seen : List (Finset Nat × (Nat → F)))
    (hseen : ∀ e ∈ seen, e.1.card < t ∧ ∀ i ∈ e.1, i + 1 < q) (h : PriPoly F)
    (hh : h.threshold = t ∧ h.secret = .ok secret) :
    ∃ zs : List (PriPoly F), zs.length = seen.length ∧
      (∀ z ∈ zs, z.threshold = t ∧ z.secret = .ok 0) ∧
      ∀ (k : Nat) (e : Finset Nat × (Nat → F)), seen[k]? = some e → ∀ i : Nat, ∃ d,
        renewals S (keyShare S h i) ((zs.take (k + 1)).map (fun z => keyShare S z i)) = .ok d ∧
        d.commits.head? = some (secret • S.base) ∧ (i ∈ e.1 → d.share = ⟨i, e.2 i⟩) := by
  induction seen generalizing h with
  | nil => exact ⟨[], rfl, by simp, by simp⟩
  | cons e seen ih =>
    obtain ⟨he, hrest⟩ := List.forall_mem_cons.1 hseen
    obtain ⟨h', h1, h2, h3⟩ := C05_no_secret_excluded q t e.1 he.2 he.1 e.2 secret
    obtain ⟨zs, hz1, hz2, hz3⟩ := ih hrest h' ⟨h1, h2⟩
    -- the renewal from `h` to `h'`
    have hsub : ∀ l l' : List F, l.length = l'.length →
        List.zipWith (· + ·) l (List.zipWith (· - ·) l' l) = l' := by
      intro l
      induction l with
      | nil => intro l' hl; cases l' with
        | nil => rfl
        | cons _ _ => simp at hl
      | cons a l ih => intro l' hl; cases l' with
        | nil => simp at hl
        | cons b l' =>
          simp only [List.zipWith_cons_cons, add_sub_cancel, ih l' (by simpa using hl)]
    let z : PriPoly F := ⟨List.zipWith (· - ·) h'.coeffs h.coeffs⟩
    have hpl : plus h z = h' := by
      simp only [plus, z]
      rw [hsub _ _ (hh.1.trans h1.symm)]
    have hzl : z.threshold = t := by
      simp only [PriPoly.threshold] at h1 hh
      simp only [PriPoly.threshold, z, List.length_zipWith, h1, hh.1, min_self]
    have hzs : z.secret = .ok 0 := by
      obtain ⟨l⟩ := h
      obtain ⟨l'⟩ := h'
      cases l with
      | nil => simp [PriPoly.secret] at hh
      | cons a l => cases l' with
        | nil => simp [PriPoly.secret] at h2
        | cons b l' =>
          simp only [PriPoly.secret, List.head?_cons, Res.unwrap_some, Res.ok.injEq] at h2 hh ⊢
          simp [z, h2, hh.2]
    refine ⟨z :: zs, by simp [hz1], ?_, ?_⟩
    · intro y hy
      rcases List.mem_cons.1 hy with rfl | hy
      · exact ⟨hzl, hzs⟩
      · exact hz2 y hy
    · intro k e' hk i
      have hstep := renew_keyShare S hl h z i (hzl.trans hh.1.symm) hzs
      rw [hpl] at hstep
      simp only [List.take_succ_cons, List.map_cons, renewals, hstep, Res.bind_ok]
      cases k with
      | zero =>
        simp only [List.getElem?_cons_zero, Option.some.injEq] at hk
        subst hk
        refine ⟨_, rfl, ?_, ?_⟩
        · obtain ⟨l'⟩ := h'
          cases l' with
          | nil => simp [PriPoly.secret] at h2
          | cons b l' =>
            simp only [PriPoly.secret, List.head?_cons, Res.unwrap_some, Res.ok.injEq] at h2
            simp [keyShare, PriPoly.commit, h2]
        · intro hi
          rw [← h3 i hi]; rfl
      | succ k =>
        rw [List.getElem?_cons_succ] at hk
        exact hz3 k e' hk i

/-- The first polynomial `p` and the renewal polynomials `zs` share `secret` with threshold `t` and give the
holders the shares that were seen, in the first period and after each renewal. -/
def Explains (S : Suite F G) (t : Nat) (secret : F) (first : Finset Nat) (seen0 : Nat → F)
    (seen : List (Finset Nat × (Nat → F))) (p : PriPoly F) (zs : List (PriPoly F)) : Prop :=
  p.threshold = t ∧ p.secret = .ok secret ∧ zs.length = seen.length ∧
  (∀ z ∈ zs, z.threshold = t ∧ z.secret = .ok 0) ∧ (∀ i ∈ first, (p.eval i).v = seen0 i) ∧
  ∀ (k : Nat) (e : Finset Nat × (Nat → F)), seen[k]? = some e → ∀ i ∈ e.1, ∃ d,
    renewals S (keyShare S p i) ((zs.take (k + 1)).map (fun z => keyShare S z i)) = .ok d ∧
    d.share = ⟨i, e.2 i⟩

private theorem plus_secret {p z : PriPoly F} {secret : F} (hp : p.secret = .ok secret) (hz : z.secret = .ok 0) :
    (plus p z).secret = .ok secret := by
  obtain ⟨l⟩ := p
  obtain ⟨l'⟩ := z
  cases l with
  | nil => simp [PriPoly.secret] at hp
  | cons a l => cases l' with
    | nil => simp [PriPoly.secret] at hz
    | cons b l' =>
      simp only [PriPoly.secret, List.head?_cons, Res.unwrap_some, Res.ok.injEq] at hp hz
      simp [PriPoly.secret, plus, hp, hz]

private theorem plus_threshold {p z : PriPoly F} {t : Nat} (hp : p.threshold = t) (hz : z.threshold = t) :
    (plus p z).threshold = t := by
  simp only [PriPoly.threshold] at hp hz
  simp only [PriPoly.threshold, plus, List.length_zipWith, hp, hz, min_self]

private theorem plus_cancel {p z z' : PriPoly F} (h : z.threshold = p.threshold) (h' : z'.threshold = p.threshold)
    (he : plus p z = plus p z') : z = z' := by
  obtain ⟨l⟩ := p
  obtain ⟨m⟩ := z
  obtain ⟨m'⟩ := z'
  simp only [PriPoly.threshold] at h h'
  simp only [plus, PriPoly.mk.injEq] at he ⊢
  induction l generalizing m m' with
  | nil =>
    rw [List.length_eq_zero_iff.1 h, List.length_eq_zero_iff.1 h']
  | cons a l ih => cases m with
    | nil => simp at h
    | cons b m => cases m' with
      | nil => simp at h'
      | cons b' m' =>
        simp only [List.zipWith_cons_cons, List.cons.injEq, add_right_inj] at he
        rw [he.1, ih m (by simpa using h) m' (by simpa using h') he.2]

private theorem renewals_unique (q : Nat) [CharP F q] (S : Suite F G) (hl : Lin F S.base) (t : Nat) (secret : F)
    (seen : List (Finset Nat × (Nat → F)))
    (hseen : ∀ e ∈ seen, e.1.card + 1 = t ∧ ∀ i ∈ e.1, i + 1 < q) (h : PriPoly F)
    (hh : h.threshold = t ∧ h.secret = .ok secret) (zs zs' : List (PriPoly F))
    (hz : Explains S t secret ∅ (fun _ => 0) seen h zs) (hz' : Explains S t secret ∅ (fun _ => 0) seen h zs') :
    zs = zs' := by
  induction seen generalizing h zs zs' with
  | nil =>
    rw [List.length_eq_zero_iff.1 hz.2.2.1, List.length_eq_zero_iff.1 hz'.2.2.1]
  | cons e seen ih =>
    obtain ⟨he, hrest⟩ := List.forall_mem_cons.1 hseen
    cases zs with
    | nil => simp [Explains] at hz
    | cons z zs => cases zs' with
      | nil => simp [Explains] at hz'
      | cons z' zs' =>
        have key : ∀ y ys, Explains S t secret ∅ (fun _ => 0) (e :: seen) h (y :: ys) →
            (y.threshold = t ∧ y.secret = .ok 0) ∧ (∀ i ∈ e.1, ((plus h y).eval i).v = e.2 i) ∧
            Explains S t secret ∅ (fun _ => 0) seen (plus h y) ys := by
          rintro y ys ⟨-, -, hlen, hall, -, hsee⟩
          obtain ⟨hy, hys⟩ := List.forall_mem_cons.1 hall
          have hstep := fun i => renew_keyShare S hl h y i (hy.1.trans hh.1.symm) hy.2
          refine ⟨hy, ?_, plus_threshold hh.1 hy.1, plus_secret hh.2 hy.2, by simpa using hlen, hys, by simp, ?_⟩
          · intro i hi
            obtain ⟨d, hd, hs⟩ := hsee 0 e rfl i hi
            simp only [Nat.zero_add, List.take_succ_cons, List.take_zero, List.map_cons, List.map_nil, renewals,
              hstep, Res.bind_ok, Res.ok.injEq] at hd
            subst hd
            simp only [keyShare] at hs
            rw [hs]
          · intro k e' hk i hi
            obtain ⟨d, hd, hs⟩ := hsee (k + 1) e' (by simpa using hk) i hi
            simp only [List.take_succ_cons, List.map_cons, renewals, hstep, Res.bind_ok] at hd
            exact ⟨d, hd, hs⟩
        obtain ⟨hy, hv, hx⟩ := key z zs hz
        obtain ⟨hy', hv', hx'⟩ := key z' zs' hz'
        have heq : plus h z = plus h z' := (C05_unique q t e.1 he.2 he.1 e.2 secret).unique
          ⟨plus_threshold hh.1 hy.1, plus_secret hh.2 hy.2, hv⟩
          ⟨plus_threshold hh.1 hy'.1, plus_secret hh.2 hy'.2, hv'⟩
        have hzz := plus_cancel (hy.1.trans hh.1.symm) (hy'.1.trans hh.1.symm) heq
        rw [hzz, ih hrest (plus h z) ⟨plus_threshold hh.1 hy.1, plus_secret hh.2 hy.2⟩ zs zs' hx (heq ▸ hx')]

/-- C121: whoever sees in every period the shares of fewer than `t` holders, other holders in each period and
over any number of periods, cannot exclude any secret: for every value `secret` there are a first
polynomial and renewal polynomials (with zero constant term, as `renew` asks) that explain what was seen; all
renewals succeed, for all holders, and keep the public key. -/
theorem C121_renewals_hide (q : Nat) [CharP F q] (S : Suite F G) (hl : Lin F S.base) (t : Nat)
    (first : Finset Nat) (seen0 : Nat → F) (h0 : first.card < t ∧ ∀ i ∈ first, i + 1 < q)
    (seen : List (Finset Nat × (Nat → F)))
    (hseen : ∀ e ∈ seen, e.1.card < t ∧ ∀ i ∈ e.1, i + 1 < q) (secret : F) :
    ∃ (p : PriPoly F) (zs : List (PriPoly F)), Explains S t secret first seen0 seen p zs ∧
      ∀ k < seen.length, ∀ i : Nat, ∃ d,
        renewals S (keyShare S p i) ((zs.take (k + 1)).map (fun z => keyShare S z i)) = .ok d ∧
        d.commits.head? = some (secret • S.base) := by
  obtain ⟨p, h1, h2, h3⟩ := C05_no_secret_excluded q t first h0.2 h0.1 seen0 secret
  obtain ⟨zs, hz1, hz2, hz3⟩ := renewals_exist q S hl t secret seen hseen p ⟨h1, h2⟩
  refine ⟨p, zs, ⟨h1, h2, hz1, hz2, h3, ?_⟩, ?_⟩
  · intro k e hk i hi
    obtain ⟨d, hd, -, hs⟩ := hz3 k e hk i
    exact ⟨d, hd, hs hi⟩
  · intro k hk i
    obtain ⟨d, hd, hc, -⟩ := hz3 k _ (List.getElem?_eq_getElem hk) i
    exact ⟨d, hd, hc⟩


example (secret : ZMod 11) := C121_renewals_hide 11 Toy.suite (Lin.of_module _) 3 {0, 2} (fun i => 3 + i)
  (by decide) [({1, 2}, fun i => 5 * i), ({0}, fun _ => 4)] (by decide) secret

/-- C121: with `t - 1` holders in every period each secret has exactly one explanation, so all secrets
are equally likely to whoever sees these shares. -/
theorem C121_renewals_unique (q : Nat) [CharP F q] (S : Suite F G) (hl : Lin F S.base) (t : Nat)
    (first : Finset Nat) (seen0 : Nat → F) (h0 : first.card + 1 = t ∧ ∀ i ∈ first, i + 1 < q)
    (seen : List (Finset Nat × (Nat → F)))
    (hseen : ∀ e ∈ seen, e.1.card + 1 = t ∧ ∀ i ∈ e.1, i + 1 < q) (secret : F) :
    ∃! e : PriPoly F × List (PriPoly F), Explains S t secret first seen0 seen e.1 e.2 := by
  obtain ⟨p, zs, hex, -⟩ := C121_renewals_hide q S hl t first seen0 ⟨by omega, h0.2⟩ seen
    (fun e he => ⟨by have := (hseen e he).1; omega, (hseen e he).2⟩) secret
  refine ⟨(p, zs), hex, ?_⟩
  rintro ⟨p', zs'⟩ hex'
  have hp : p' = p := (C05_unique q t first h0.2 h0.1 seen0 secret).unique
    ⟨hex'.1, hex'.2.1, hex'.2.2.2.2.1⟩ ⟨hex.1, hex.2.1, hex.2.2.2.2.1⟩
  subst hp
  have weak : ∀ ys, Explains S t secret first seen0 seen p' ys → Explains S t secret ∅ (fun _ => 0) seen p' ys :=
    fun ys ⟨a, b, c, d, _, f⟩ => ⟨a, b, c, d, by simp, f⟩
  rw [renewals_unique q S hl t secret seen hseen p' ⟨hex.1, hex.2.1⟩ zs' zs (weak _ hex') (weak _ hex)]

namespace ProactiveExample

/-- The key 5 shared with threshold 2 among three holders. -/
def p : PriPoly (ZMod 11) := ⟨[5, 3]⟩
/-- Two renewals. -/
def zs : List (PriPoly (ZMod 11)) := [⟨[0, 4]⟩, ⟨[0, 9]⟩]
/-- Share 1 is seen after the first renewal, share 2 after the second. -/
def seen : List (Finset Nat × (Nat → ZMod 11)) := [({1}, fun _ => 8), ({2}, fun _ => 9)]

theorem run (i : Nat) : renewals Toy.suite (keyShare Toy.suite p i) (zs.map (keyShare Toy.suite · i)) =
    .ok (keyShare Toy.suite (plus (plus p ⟨[0, 4]⟩) ⟨[0, 9]⟩) i) := by
  simp only [renewals, zs, List.map_cons, List.map_nil]
  rw [renew_keyShare Toy.suite Toy.lawful.base_lin p ⟨[0, 4]⟩ i rfl rfl, Res.bind_ok,
    renew_keyShare Toy.suite Toy.lawful.base_lin (plus p ⟨[0, 4]⟩) ⟨[0, 9]⟩ i rfl rfl]
  rfl

/-- The run explains what is seen: share 0 in the first period, then share 1, then share 2. -/
theorem explains : Explains Toy.suite 2 5 {0} (fun _ => 8) seen p zs := by
  refine ⟨rfl, rfl, rfl, ?_, ?_, ?_⟩
  · intro z hz
    simp only [zs, List.mem_cons, List.not_mem_nil, or_false] at hz
    rcases hz with rfl | rfl <;> exact ⟨rfl, rfl⟩
  · intro i hi
    rw [Finset.mem_singleton.1 hi]; decide
  · intro k e hk i hi
    match k with
    | 0 =>
      simp only [seen, List.getElem?_cons_zero, Option.some.injEq] at hk
      subst hk
      rw [Finset.mem_singleton.1 hi]
      exact ⟨_, rfl, by decide⟩
    | 1 =>
      simp only [seen, List.getElem?_cons_succ, List.getElem?_cons_zero, Option.some.injEq] at hk
      subst hk
      rw [Finset.mem_singleton.1 hi]
      exact ⟨_, run 2, by decide⟩
    | k + 2 => simp [seen] at hk

/-- The theorem applies: three different holders, three shares in all, and no secret is excluded, though
any two shares of one period give the key away. -/
example (secret : ZMod 11) : ∃! e : PriPoly (ZMod 11) × List (PriPoly (ZMod 11)),
    Explains Toy.suite 2 secret {0} (fun _ => 8) seen e.1 e.2 :=
  C121_renewals_unique 11 Toy.suite Toy.lawful.base_lin 2 {0} _ (by decide) seen (by
    intro e he
    simp only [seen, List.mem_cons, List.not_mem_nil, or_false] at he
    rcases he with rfl | rfl <;> decide) secret

example : recoverSecret MapOrder.id [some (p.eval 0), some (p.eval 1)] 2 = .ok 5 ∧
    recoverSecret MapOrder.id [some (p.eval 0), some ⟨1, 8⟩] 2 ≠ .ok 5 := by decide +kernel

end ProactiveExample

/-! ## Resharing -/

/-- C121: the same for a resharing. The old holders `i` share their shares of `p` with the new group;
an observer sees the shares and all secrets of fewer than `t` old holders, and what fewer than `t'` new
holders get from all old holders. For every other secret there are an old polynomial and random
coefficients of the other old holders for which all this is the same. -/
theorem C121_resharing_hides (q : Nat) [CharP F q] (S : Suite F G) (t t' : Nat) (p : PriPoly F)
    (x : Nat → F) (pubs : List G) (draws : Nat → List F) (n : Nat)
    (d : Nat → Dealer F G)
    (hd : ∀ i < n, VssP.newDealer S (x i) (p.eval i).v pubs t' (draws i) = .ok (d i))
    (olds news : Finset Nat) (ho : olds.card < t ∧ ∀ i ∈ olds, i + 1 < q)
    (hn : news.card < t' ∧ ∀ j ∈ news, j + 1 < q) (secret : F) :
    ∃ (p' : PriPoly F) (draws' : Nat → List F) (d' : Nat → Dealer F G),
      p'.threshold = t ∧ p'.secret = .ok secret ∧
      (∀ i < n, VssP.newDealer S (x i) (p'.eval i).v pubs t' (draws' i) = .ok (d' i)) ∧
      (∀ i ∈ olds, p'.eval i = p.eval i ∧ draws' i = draws i ∧ (i < n → d' i = d i)) ∧
      ∀ i < n, ∀ j ∈ news, (d' i).deals[j]?.map (·.secShare) = (d i).deals[j]?.map (·.secShare) := by
  classical
  obtain ⟨p', h1, h2, h3⟩ := C05_no_secret_excluded q t olds ho.2 ho.1 (fun i => (p.eval i).v) secret
  have hev : ∀ i ∈ olds, p'.eval i = p.eval i := by
    intro i hi
    have : ∀ a b : Share F, a.i = b.i → a.v = b.v → a = b := by
      rintro ⟨_, _⟩ ⟨_, _⟩ h1 h2
      simp only at h1 h2
      rw [h1, h2]
    exact this _ _ rfl (h3 i hi)
  -- the random coefficients of the other old holders
  have hex : ∀ i, ∃ cs : List F, (i < n → i ∉ olds → cs.length = t' - 1 ∧
      ∀ j ∈ news, polyVal ((p'.eval i).v :: cs) ((j + 1 : Nat) : F) = ((d i).secretPoly.eval j).v) := by
    intro i
    by_cases hi : i < n
    · obtain ⟨cs, hc1, hc2⟩ := exists_unique_poly q news hn.2
        (fun j => ((d i).secretPoly.eval j).v) (p'.eval i).v t' hn.1
      exact ⟨cs, fun _ _ => ⟨by simp only [List.length_cons] at hc1; omega, hc2⟩⟩
    · exact ⟨[], fun h => absurd h hi⟩
  choose cs hcs using hex
  have hdl : ∀ i, ∃ d' : Dealer F G, i < n →
      VssP.newDealer S (x i) (p'.eval i).v pubs t' (if i ∈ olds then draws i else cs i) = .ok d' := by
    intro i
    by_cases hi : i < n
    · by_cases hio : i ∈ olds
      · exact ⟨d i, fun _ => by rw [if_pos hio, hev i hio]; exact hd i hi⟩
      · have hlen := (hcs i hi hio).1
        have hv := (VssP.newDealer_ok (hd i hi)).1
        rw [if_neg hio]
        unfold VssP.newDealer
        rw [if_neg (by simp [hv])]
        simp only [newPriPoly]
        rw [if_pos (by omega)]
        exact ⟨_, fun _ => rfl⟩
    · exact ⟨d i, fun h => absurd h hi⟩
  choose d' hd' using hdl
  refine ⟨p', fun i => if i ∈ olds then draws i else cs i, d', h1, h2, hd', ?_, ?_⟩
  · intro i hi
    refine ⟨hev i hi, if_pos hi, fun hin => ?_⟩
    have := hd' i hin
    rw [if_pos hi, hev i hi, hd i hin] at this
    exact (Res.ok.injEq _ _ ▸ this).symm
  · intro i hin j hj
    obtain ⟨-, -, -, -, -, -, -, hpoly, -, -, -, hdeals, -⟩ := VssP.newDealer_ok (hd i hin)
    obtain ⟨-, -, -, -, -, -, -, hpoly', -, -, -, hdeals', -⟩ := VssP.newDealer_ok (hd' i hin)
    by_cases hio : i ∈ olds
    · have := hd' i hin
      rw [if_pos hio, hev i hio, hd i hin] at this
      rw [Res.ok.injEq] at this
      rw [this]
    · rw [hdeals, hdeals']
      by_cases hjl : j < pubs.length
      · rw [List.getElem?_map, List.getElem?_map, List.getElem?_range hjl]
        simp only [Option.map_some, Option.some.injEq]
        have : ∀ a b : Share F, a.i = b.i → a.v = b.v → a = b := by
          rintro ⟨_, _⟩ ⟨_, _⟩ h1 h2
          simp only at h1 h2
          rw [h1, h2]
        refine this _ _ rfl ?_
        rw [hpoly', eval_v, if_neg hio, ← (hcs i hin hio).2 j hj,
          List.take_of_length_le (by rw [(hcs i hin hio).1])]
      · rw [List.getElem?_eq_none (by simp; omega), List.getElem?_eq_none (by simp; omega)]

namespace ProactiveExample

/-- Old holder `i` shares its share of `p` with four new holders, threshold 3. -/
def dealer (i : Nat) : Dealer (ZMod 11) (ZMod 11) :=
  match VssP.newDealer Toy.suite (3 + i : ZMod 11) (p.eval i).v [1, 2, 3, 4] 3 [2, 7 + i] with
  | .ok d => d
  | _ => ⟨0, 0, 0, [], ⟨[]⟩, [], [], 0, [], [], newAggregator [] [] 0 []⟩

theorem dealers : ∀ i : Nat, i < 3 →
    VssP.newDealer Toy.suite (3 + i : ZMod 11) (p.eval i).v [1, 2, 3, 4] 3 [2, 7 + i] = .ok (dealer i) :=
  fun _ _ => rfl

/-- The hypotheses of the second theorem hold: old holder 1 and the new holders 0 and 3 are seen. -/
example (secret : ZMod 11) := C121_resharing_hides 11 Toy.suite 2 3 p (fun i => 3 + i) [1, 2, 3, 4]
  (fun i => [2, 7 + i]) 3 dealer dealers {1} {0, 3} (by decide) (by decide) secret

end ProactiveExample

end Kyber.Props
