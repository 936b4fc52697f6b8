/-
C126: on edwards25519, which share holders can vouch for the shared public key without help.
-/
import Verif.Props.EdSuite

namespace Kyber.Ed

open Kyber Kyber.ModInt Kyber.Poly Kyber.Spec Kyber.Props

/-! ### Integer polynomials with coefficients in a group -/

/-- Differences of order `t` of `f` vanish: what a polynomial with `t` coefficients fulfils. -/
def Deg {G : Type} [AddCommGroup G] : Nat → (ℤ → G) → Prop
  | 0, f => ∀ n, f n = 0
  | t + 1, f => Deg t (fun n => f (n + 1) - f n)

section

variable {G : Type} [AddCommGroup G]

theorem Deg.zero : ∀ t, Deg t (fun _ => (0 : G))
  | 0 => fun _ => rfl
  | t + 1 => by
    show Deg t (fun _ => (0 : G) - 0)
    simp only [sub_self]
    exact Deg.zero t

theorem Deg.congr {t : Nat} {f g : ℤ → G} (h : Deg t f) (e : ∀ n, f n = g n) : Deg t g := by
  rwa [← funext e]

theorem Deg.succ {t : Nat} : ∀ {f : ℤ → G}, Deg t f → Deg (t + 1) f := by
  induction t with
  | zero =>
    intro f h n
    show f (n + 1) - f n = 0
    rw [h, h, sub_zero]
  | succ t ih => intro f h; exact ih (f := fun n => f (n + 1) - f n) h

theorem Deg.add {t : Nat} : ∀ {f g : ℤ → G}, Deg t f → Deg t g → Deg t (fun n => f n + g n) := by
  induction t with
  | zero => intro f g hf hg n; show f n + g n = 0; rw [hf, hg, add_zero]
  | succ t ih =>
    intro f g hf hg
    exact (ih hf hg).congr (fun n => (add_sub_add_comm _ _ _ _).symm)

theorem Deg.shift {t : Nat} : ∀ {f : ℤ → G} (a : ℤ), Deg t f → Deg t (fun n => f (n + a)) := by
  induction t with
  | zero => intro f a h n; exact h _
  | succ t ih =>
    intro f a h
    refine (ih a h).congr (fun n => ?_)
    rw [add_right_comm]

theorem Deg.smul {t : Nat} (d : ℤ) : ∀ {f : ℤ → G}, Deg t f → Deg t (fun n => d • f n) := by
  induction t with
  | zero => intro f h n; show d • f n = 0; rw [h, smul_zero]
  | succ t ih =>
    intro f h
    refine (ih h).congr (fun n => ?_)
    rw [smul_sub]

theorem Deg.mul {t : Nat} : ∀ {f : ℤ → G}, Deg t f → Deg (t + 1) (fun n => n • f n) := by
  induction t with
  | zero =>
    intro f h
    refine (Deg.zero 1).congr (fun n => ?_)
    rw [h, smul_zero]
  | succ t ih =>
    intro f h
    show Deg (t + 1) (fun n => (n + 1) • f (n + 1) - n • f n)
    refine (Deg.add (Deg.shift 1 h) (ih h)).congr (fun n => ?_)
    show f (n + 1) + n • (f (n + 1) - f n) = _
    rw [add_smul, one_smul, smul_sub]
    abel

/-- A function of that kind that vanishes at `t` neighbouring places vanishes everywhere. -/
theorem Deg.vanish {t : Nat} : ∀ {f : ℤ → G}, Deg t f → ∀ a : ℤ, (∀ j < t, f (a + (j : Nat)) = 0) → ∀ n, f n = 0 := by
  induction t with
  | zero => intro f h a _; exact h
  | succ t ih =>
    intro f h a hz
    have hd : ∀ n, f (n + 1) - f n = 0 := by
      refine ih h a (fun j hj => ?_)
      have h1 := hz (j + 1) (by omega)
      have h0 := hz j (by omega)
      rw [Nat.cast_add, Nat.cast_one, ← add_assoc] at h1
      rw [h1, h0, sub_zero]
    have hs : ∀ n, f (n + 1) = f n := fun n => sub_eq_zero.1 (hd n)
    have h0 : f a = 0 := by simpa using hz 0 (by omega)
    intro n
    have up : ∀ k : Nat, f (a + k) = 0 := by
      intro k
      induction k with
      | zero => simpa using h0
      | succ k ihk => rw [Nat.cast_add, Nat.cast_one, ← add_assoc, hs, ihk]
    have dn : ∀ k : Nat, f (a - k) = 0 := by
      intro k
      induction k with
      | zero => simpa using h0
      | succ k ihk =>
        rw [← hs, Nat.cast_add, Nat.cast_one, show a - ((k : ℤ) + 1) + 1 = a - k by ring, ihk]
    rcases le_total a n with h | h
    · have := up (n - a).toNat
      rwa [Int.toNat_of_nonneg (by omega), show a + (n - a) = n by ring] at this
    · have := dn (a - n).toNat
      rwa [Int.toNat_of_nonneg (by omega), show a - (a - n) = n by ring] at this

/-- `c0 + n (c1 + n (c2 + ...))` for an integer `n`. -/
def intVal : List G → ℤ → G
  | [], _ => 0
  | c :: l, n => c + n • intVal l n

/-- Along an arithmetic progression. -/
theorem intVal_deg (l : List G) (a d : ℤ) : Deg l.length (fun j => intVal l (a + j * d)) := by
  induction l with
  | nil => exact fun _ => rfl
  | cons c l ih =>
    have hc : Deg (l.length + 1) (fun _ : ℤ => c) := by
      show Deg l.length (fun _ : ℤ => c - c)
      simp only [sub_self]
      exact Deg.zero _
    refine (Deg.add hc (Deg.add (Deg.smul a ih).succ (Deg.smul d ih.mul))).congr (fun j => ?_)
    show c + (a • intVal l (a + j * d) + d • j • intVal l (a + j * d)) = c + (a + j * d) • intVal l (a + j * d)
    rw [add_smul, mul_comm j d, mul_smul]

/-- With coefficients of order dividing eight the value depends on the place modulo eight only. -/
theorem intVal_mod (l : List G) (h : ∀ c ∈ l, 8 • c = 0) (n k : ℤ) : intVal l (n + 8 * k) = intVal l n := by
  have h8 : ∀ l : List G, (∀ c ∈ l, 8 • c = 0) → ∀ n : ℤ, (8 : ℤ) • intVal l n = 0 := by
    intro l
    induction l with
    | nil => intro _ n; exact smul_zero _
    | cons c l ih =>
      intro h n
      rw [intVal, smul_add, smul_comm, ih (fun c hc => h c (List.mem_cons_of_mem _ hc)), smul_zero, add_zero]
      have := h c (List.mem_cons_self ..)
      rw [← natCast_zsmul] at this
      exact this
  induction l with
  | nil => rfl
  | cons c l ih =>
    have hl := fun c hc => h c (List.mem_cons_of_mem _ hc)
    rw [intVal, intVal, ih hl, add_smul, mul_comm, mul_smul, h8 l hl, smul_zero, add_zero]

theorem intVal_smul (l : List G) (m : Nat) (n : ℤ) : intVal (l.map (m • ·)) n = m • intVal l n := by
  induction l with
  | nil => exact (smul_zero _).symm
  | cons c l ih => rw [List.map_cons, intVal, intVal, ih, smul_add, smul_comm n m]

theorem intVal_zero (l : List G) : intVal l 0 = l.getD 0 0 := by
  cases l with
  | nil => rfl
  | cons c l => rw [intVal, zero_smul, add_zero]; rfl

end

/-! ### Checked shares on the curve -/

theorem eval_intVal (commits : List EdPt) {i : Nat} (hi : i + 1 < L) :
    commits.foldr (fun c v => ((i + 1 : Nat) : ZMod L) • v + c) 0 = intVal commits ((i + 1 : Nat) : ℤ) := by
  induction commits with
  | nil => rfl
  | cons c l ih =>
    rw [List.foldr_cons, ih, intVal, act_def, val_natCast_L, Nat.mod_eq_of_lt hi, natCast_zsmul, add_comm]

/-- The check of a share is an equation between points. -/
theorem check_iff {commits : List EdPt} (hc : commits ≠ []) {s : Share (ZMod L)} (hi : s.i + 1 < L) :
    (⟨none, commits⟩ : PubPoly EdPt).check basePt s = .ok true ↔
      s.v • basePt = intVal commits ((s.i + 1 : Nat) : ℤ) := by
  unfold PubPoly.check PubPoly.eval
  rw [if_neg (by simpa using hc), Res.bind_ok, Res.ok.injEq, decide_eq_true_eq]
  simp only [xc, Option.getD_none]
  rw [eval_intVal commits hi]
  exact eq_comm

theorem L_smul_act (a : ZMod L) : L • (a • basePt) = 0 := by
  rw [act_def, smul_comm, L_smul_base, smul_zero]

theorem eight_L (p : EdPt) : 8 • (L • p) = 0 := by
  rw [smul_comm]
  exact (mem_Sub_iff _).1 (eight_smul_mem p)

/-- A point is determined by its multiples by eight and by `L`. -/
theorem eq_of_parts {p q : EdPt} (h8 : 8 • p = 8 • q) (hL : L • p = L • q) : p = q := by
  have hm : L • (p - q) = 0 := by rw [smul_sub, hL, sub_self]
  have h8 : 8 • (p - q) = 0 := by rw [smul_sub, h8, sub_self]
  have o1 := addOrderOf_dvd_of_nsmul_eq_zero hm
  have o2 := addOrderOf_dvd_of_nsmul_eq_zero h8
  have := Nat.dvd_gcd o1 o2
  rw [show Nat.gcd L 8 = 1 by decide +kernel] at this
  exact sub_eq_zero.1 (AddMonoid.addOrderOf_eq_one_iff.1 (Nat.dvd_one.1 this))

/-- C126: shares that pass the check at the indices `a, a + d, ..., a + (t - 1) d` of a progression
with `gcd d 8` dividing `a + 1`, `t` the number of commitments, recover a secret whose public key is
the first commitment, whatever the dealer committed to. For neighbours `d = 1`. -/
theorem C126_progression (ord : MapOrder) (commits : List EdPt) (shares : List (Share (ZMod L)))
    (hc : commits ≠ []) (hs : ∀ s ∈ shares, (⟨none, commits⟩ : PubPoly EdPt).check basePt s = .ok true)
    (hi : ∀ s ∈ shares, s.i + 1 < L) (a d : Nat) (hd : 0 < d) (hg : Nat.gcd d 8 ∣ a + 1)
    (hall : ∀ j < commits.length, ∃ s ∈ shares, s.i = a + j * d) :
    ∃ s, recoverSecret ord (shares.map some) commits.length = .ok s ∧ s • basePt = commits.getD 0 0 := by
  have hn : commits.length ≤ (shares.map (fun s => s.i)).toFinset.card := by
    have : (Finset.range commits.length).image (fun j => a + j * d) ⊆ (shares.map (fun s => s.i)).toFinset := by
      intro x hx
      obtain ⟨j, hj, rfl⟩ := Finset.mem_image.1 hx
      obtain ⟨s, h1, h2⟩ := hall j (Finset.mem_range.1 hj)
      exact List.mem_toFinset.2 (List.mem_map.2 ⟨s, h1, h2⟩)
    have h2 := Finset.card_le_card this
    rwa [Finset.card_image_of_injective _ (fun x y h => by
      have h : a + x * d = a + y * d := h
      exact Nat.eq_of_mul_eq_mul_right hd (by omega)), Finset.card_range] at h2
  obtain ⟨s, h1, h2, -⟩ := C92_cofactor_partial ord commits shares hc hs
    (fun s h => lt_trans (Nat.lt_succ_self _) (hi s h)) hn
  refine ⟨s, h1, ?_⟩
  have hv : ∀ j : ℤ, intVal (commits.map (L • ·)) (((a + 1 : Nat) : ℤ) + j * d) = 0 := by
    have hdeg := intVal_deg (commits.map (L • ·)) ((a + 1 : Nat) : ℤ) (d : ℤ)
    rw [List.length_map] at hdeg
    refine hdeg.vanish 0 (fun j hj => ?_)
    obtain ⟨s, h3, h4⟩ := hall j hj
    have h5 := (check_iff hc (hi s h3)).1 (hs s h3)
    rw [intVal_smul, zero_add, show ((a + 1 : Nat) : ℤ) + (j : Nat) * (d : Nat) = ((s.i + 1 : Nat) : ℤ) by
      rw [h4]; push_cast; ring, ← h5, L_smul_act]
  have h0 : L • commits.getD 0 0 = 0 := by
    have hz : ∀ c ∈ commits.map (L • ·), 8 • c = 0 := by
      intro c h
      obtain ⟨p, -, rfl⟩ := List.mem_map.1 h
      exact eight_L p
    obtain ⟨m, hm⟩ := hg
    have hb := Nat.gcd_eq_gcd_ab d 8
    have := hv (-(m * Nat.gcdA d 8))
    rw [hm, show (((d.gcd 8 * m : Nat) : ℤ) + -(m * Nat.gcdA d 8) * d) = 0 + 8 * (m * Nat.gcdB d 8) by
      push_cast
      rw [hb]
      push_cast
      ring, intVal_mod _ hz, intVal_zero] at this
    cases commits with
    | nil => exact absurd rfl hc
    | cons c l => rwa [List.map_cons, List.getD_cons_zero] at this
  exact eq_of_parts h2 (by rw [h0, L_smul_act])

/-- C126: holders of `t` neighbouring shares that pass the check recover the private key of the first
commitment, and every public share is in the prime order subgroup. -/
theorem C126_neighbours (ord : MapOrder) (commits : List EdPt) (shares : List (Share (ZMod L)))
    (hc : commits ≠ []) (hs : ∀ s ∈ shares, (⟨none, commits⟩ : PubPoly EdPt).check basePt s = .ok true)
    (hi : ∀ s ∈ shares, s.i + 1 < L) (a : Nat) (hall : ∀ j < commits.length, ∃ s ∈ shares, s.i = a + j) :
    (∃ s, recoverSecret ord (shares.map some) commits.length = .ok s ∧ s • basePt = commits.getD 0 0) ∧
    ∀ i, i + 1 < L → ∃ p, (⟨none, commits⟩ : PubPoly EdPt).eval (ZMod L) i = .ok ⟨i, p⟩ ∧ L • p = 0 := by
  refine ⟨C126_progression ord commits shares hc hs hi a 1 Nat.one_pos (by simp)
    (fun j hj => by simpa using hall j hj), fun i h => ?_⟩
  refine ⟨intVal commits ((i + 1 : Nat) : ℤ), ?_, ?_⟩
  · unfold PubPoly.eval
    rw [if_neg (by simpa using hc)]
    show Res.ok _ = _
    rw [show xc (ZMod L) i = ((i + 1 : Nat) : ZMod L) from rfl, eval_intVal commits h]
  · have hdeg := intVal_deg (commits.map (L • ·)) 0 1
    rw [List.length_map] at hdeg
    have := hdeg.vanish ((a + 1 : Nat) : ℤ) (fun j hj => by
      obtain ⟨s, h3, h4⟩ := hall j hj
      have h5 := (check_iff hc (hi s h3)).1 (hs s h3)
      rw [intVal_smul, zero_add, mul_one, show ((a + 1 : Nat) : ℤ) + (j : Nat) = ((s.i + 1 : Nat) : ℤ) by
        rw [h4]; push_cast; ring, ← h5, L_smul_act]) ((i + 1 : Nat) : ℤ)
    rwa [intVal_smul, zero_add, mul_one] at this

/-- C126: where the condition on two indices fails, a dealer can shift the commitments to any
polynomial by points of small order so that both holders accept, and no secret has the first
commitment as its public key. -/
theorem C126_pair_attack (i j : Nat) (hij : i < j) (hj : j + 1 < L) (hg : ¬ Nat.gcd (j - i) 8 ∣ i + 1)
    (a b : ZMod L) :
    ∃ T0 T1 : EdPt, 8 • T0 = 0 ∧ 8 • T1 = 0 ∧
      (∀ n ∈ [i, j], (⟨none, [a • basePt + T0, b • basePt + T1]⟩ : PubPoly EdPt).check basePt
        ⟨n, a + ((n + 1 : Nat) : ZMod L) * b⟩ = .ok true) ∧
      ∀ s : ZMod L, s • basePt ≠ a • basePt + T0 := by
  obtain ⟨m, hm⟩ : Nat.gcd (j - i) 8 ∣ 8 := Nat.gcd_dvd_right _ _
  obtain ⟨r, hr⟩ : Nat.gcd (j - i) 8 ∣ j - i := Nat.gcd_dvd_left _ _
  generalize Nat.gcd (j - i) 8 = g at hg hm hr
  have ht : 8 • tPt = 0 := by
    have := addOrderOf_nsmul_eq_zero tPt
    rwa [addOrderOf_tPt] at this
  have hT1 : 8 • (m • tPt) = 0 := by rw [smul_comm, ht, smul_zero]
  have hgT : g • (m • tPt) = 0 := by rw [← mul_smul, ← hm, ht]
  have hT0 : 8 • (-((i + 1) • (m • tPt))) = 0 := by rw [smul_neg, smul_comm, hT1, smul_zero, neg_zero]
  refine ⟨-((i + 1) • (m • tPt)), m • tPt, hT0, hT1, ?_, ?_⟩
  · have key : ∀ n, n + 1 < L → (n + 1) • (m • tPt) = (i + 1) • (m • tPt) →
        (⟨none, [a • basePt + -((i + 1) • (m • tPt)), b • basePt + m • tPt]⟩ : PubPoly EdPt).check basePt
        ⟨n, a + ((n + 1 : Nat) : ZMod L) * b⟩ = .ok true := by
      intro n hn he
      rw [check_iff (by simp) hn]
      have h1 : ((n + 1 : Nat) : ZMod L) • (b • basePt) = (n + 1) • (b • basePt) := by
        generalize b • basePt = q
        rw [act_def, val_natCast_L, Nat.mod_eq_of_lt hn]
      rw [((C70_exact_partial basePt).1.2 L_smul_base), ((C70_exact_partial basePt).2.2 L_smul_base), h1]
      simp only [intVal, smul_zero, add_zero, natCast_zsmul]
      rw [smul_add, he]
      abel
    intro n hn
    rcases List.mem_pair.1 hn with rfl | rfl
    · exact key _ (lt_trans (Nat.succ_lt_succ hij) hj) rfl
    · refine key _ hj ?_
      rw [show n + 1 = (i + 1) + g * r by omega, add_smul, mul_comm g r, mul_smul, hgT, smul_zero, add_zero]
  · intro s h
    have hL : L • (-((i + 1) • (m • tPt))) = 0 := by
      have := congrArg (L • ·) h
      simp only [smul_add, L_smul_act, zero_add] at this
      exact this.symm
    have h0 : -((i + 1) • (m • tPt)) = 0 := eq_of_parts (by rw [hT0, smul_zero]) (by rw [hL, smul_zero])
    rw [neg_eq_zero, ← mul_smul] at h0
    have hd := addOrderOf_dvd_of_nsmul_eq_zero h0
    rw [addOrderOf_tPt, hm] at hd
    refine hg (Nat.dvd_of_mul_dvd_mul_right ?_ hd)
    rcases Nat.eq_zero_or_pos m with rfl | h
    · omega
    · exact h


example (a b : ZMod L) := C126_pair_attack 0 2 (by decide) (by decide +kernel) (by decide) a b

/-- C126, exact for two holders: they can rely on the first commitment, whatever the dealer sent,
if and only if `gcd (j - i) 8` divides `i + 1`. -/
theorem C126_pair (ord : MapOrder) (i j : Nat) (hij : i < j) (hj : j + 1 < L) :
    (∀ (C0 C1 : EdPt) (v w : ZMod L),
      (⟨none, [C0, C1]⟩ : PubPoly EdPt).check basePt ⟨i, v⟩ = .ok true →
      (⟨none, [C0, C1]⟩ : PubPoly EdPt).check basePt ⟨j, w⟩ = .ok true →
      ∃ s, recoverSecret ord [some ⟨i, v⟩, some ⟨j, w⟩] 2 = .ok s ∧ s • basePt = C0) ↔
    Nat.gcd (j - i) 8 ∣ i + 1 := by
  constructor
  · intro h
    by_contra hg
    obtain ⟨T0, T1, -, -, h1, h2⟩ := C126_pair_attack i j hij hj hg 1 1
    obtain ⟨s, -, hs⟩ := h _ _ _ _ (h1 i (by simp)) (h1 j (by simp))
    exact h2 s hs
  · intro hg C0 C1 v w h1 h2
    refine C126_progression ord [C0, C1] [⟨i, v⟩, ⟨j, w⟩] (by simp) ?_ ?_ i (j - i) (by omega) hg ?_
    · intro s hs
      rcases List.mem_pair.1 hs with rfl | rfl
      · exact h1
      · exact h2
    · intro s hs
      rcases List.mem_pair.1 hs with rfl | rfl
      · exact lt_trans (Nat.succ_lt_succ hij) hj
      · exact hj
    · intro n hn
      obtain rfl | rfl : n = 0 ∨ n = 1 := by
        have : n < 2 := hn
        omega
      · exact ⟨⟨i, v⟩, by simp, by simp⟩
      · exact ⟨⟨j, w⟩, by simp, by show j = i + 1 * (j - i); omega⟩

/-- Holders 0 and 1, 1 and 2, 1 and 3 and 7 and 15 vouch for the key; 0 and 2, 1 and 5 do not. -/
example : Nat.gcd (1 - 0) 8 ∣ 0 + 1 ∧ Nat.gcd (2 - 1) 8 ∣ 1 + 1 ∧ Nat.gcd (3 - 1) 8 ∣ 1 + 1 ∧
    Nat.gcd (15 - 7) 8 ∣ 7 + 1 ∧ ¬ Nat.gcd (2 - 0) 8 ∣ 0 + 1 ∧ ¬ Nat.gcd (5 - 1) 8 ∣ 1 + 1 := by decide

/-- Commitments outside the subgroup that pass the check at every index with the first one in it: the
points of order two cancel since `n² + n` is even. -/
theorem C126_even (a b c : ZMod L) (i : Nat) (hi : i + 1 < L) :
    (⟨none, [a • basePt, b • basePt + t2, c • basePt + t2]⟩ : PubPoly EdPt).check basePt
      ⟨i, a + ((i + 1 : Nat) : ZMod L) * (b + ((i + 1 : Nat) : ZMod L) * c)⟩ = .ok true ∧ L • (b • basePt + t2) ≠ 0 := by
  have hl : ∀ (x : ZMod L), ((i + 1 : Nat) : ZMod L) • (x • basePt) = (i + 1) • (x • basePt) := by
    intro x
    generalize x • basePt = q
    rw [act_def, val_natCast_L, Nat.mod_eq_of_lt hi]
  refine ⟨?_, ?_⟩
  · rw [check_iff (by simp) hi]
    rw [((C70_exact_partial basePt).1.2 L_smul_base), ((C70_exact_partial basePt).2.2 L_smul_base), hl,
      ((C70_exact_partial basePt).1.2 L_smul_base), ((C70_exact_partial basePt).2.2 L_smul_base), hl]
    simp only [intVal, smul_zero, add_zero, natCast_zsmul]
    have : (i + 1) • t2 + (i + 1) • ((i + 1) • t2) = 0 := by
      rw [← mul_smul, ← add_smul]
      obtain ⟨r, hr⟩ : 2 ∣ (i + 1) + (i + 1) * (i + 1) := by
        have := Nat.even_mul_succ_self (i + 1)
        rw [Nat.mul_succ, add_comm] at this
        exact this.two_dvd
      rw [hr, mul_comm, mul_smul, t2_two, smul_zero]
    have e := congrArg (a • basePt + ((i + 1) • (b • basePt + (i + 1) • c • basePt)) + ·) this
    simp only [add_zero] at e
    rw [← e]
    simp only [smul_add]
    abel
  · rw [smul_add, L_smul_act, zero_add]
    intro h
    exact t2_ne (eq_of_parts (by
      rw [smul_zero, show (8 : Nat) = 4 * 2 by rfl, mul_smul, t2_two, smul_zero]) (by rw [h, smul_zero]))

/-- Three neighbours with such commitments: the hypotheses of `C126_neighbours` with a commitment outside the subgroup. -/
example (a b c : ZMod L) : ∃ s, recoverSecret MapOrder.id
    [some ⟨4, a + ((4 + 1 : Nat) : ZMod L) * (b + ((4 + 1 : Nat) : ZMod L) * c)⟩,
     some ⟨5, a + ((5 + 1 : Nat) : ZMod L) * (b + ((5 + 1 : Nat) : ZMod L) * c)⟩,
     some ⟨6, a + ((6 + 1 : Nat) : ZMod L) * (b + ((6 + 1 : Nat) : ZMod L) * c)⟩] 3 = .ok s ∧
    s • basePt = a • basePt := by
  have hL : ∀ k < 8, k + 1 < L := fun k hk => lt_of_lt_of_le (Nat.succ_lt_succ hk) (by decide +kernel)
  refine (C126_neighbours MapOrder.id [a • basePt, b • basePt + t2, c • basePt + t2]
    [⟨4, a + ((4 + 1 : Nat) : ZMod L) * (b + ((4 + 1 : Nat) : ZMod L) * c)⟩,
     ⟨5, a + ((5 + 1 : Nat) : ZMod L) * (b + ((5 + 1 : Nat) : ZMod L) * c)⟩,
     ⟨6, a + ((6 + 1 : Nat) : ZMod L) * (b + ((6 + 1 : Nat) : ZMod L) * c)⟩] (by simp) ?_ ?_ 4 ?_).1
  · intro s hs
    simp only [List.mem_cons, List.not_mem_nil, or_false] at hs
    rcases hs with rfl | rfl | rfl
    · exact (C126_even a b c 4 (hL 4 (by omega))).1
    · exact (C126_even a b c 5 (hL 5 (by omega))).1
    · exact (C126_even a b c 6 (hL 6 (by omega))).1
  · intro s hs
    simp only [List.mem_cons, List.not_mem_nil, or_false] at hs
    rcases hs with rfl | rfl | rfl
    · exact hL 4 (by omega)
    · exact hL 5 (by omega)
    · exact hL 6 (by omega)
  · intro j hj
    have : j < 3 := hj
    obtain rfl | rfl | rfl : j = 0 ∨ j = 1 ∨ j = 2 := by omega
    · exact ⟨_, List.mem_cons_self .., rfl⟩
    · exact ⟨_, List.mem_cons_of_mem _ (List.mem_cons_self ..), rfl⟩
    · exact ⟨_, List.mem_cons_of_mem _ (List.mem_cons_of_mem _ (List.mem_cons_self ..)), rfl⟩

/-- `C126_progression`: the holders 1, 3 and 5 of the same dealer, two apart. -/
example (a b c : ZMod L) : ∃ s, recoverSecret MapOrder.id
    [some ⟨1, a + ((1 + 1 : Nat) : ZMod L) * (b + ((1 + 1 : Nat) : ZMod L) * c)⟩,
     some ⟨3, a + ((3 + 1 : Nat) : ZMod L) * (b + ((3 + 1 : Nat) : ZMod L) * c)⟩,
     some ⟨5, a + ((5 + 1 : Nat) : ZMod L) * (b + ((5 + 1 : Nat) : ZMod L) * c)⟩] 3 = .ok s ∧
    s • basePt = a • basePt := by
  have hL : ∀ k < 8, k + 1 < L := fun k hk => lt_of_lt_of_le (Nat.succ_lt_succ hk) (by decide +kernel)
  refine C126_progression MapOrder.id [a • basePt, b • basePt + t2, c • basePt + t2]
    [⟨1, a + ((1 + 1 : Nat) : ZMod L) * (b + ((1 + 1 : Nat) : ZMod L) * c)⟩,
     ⟨3, a + ((3 + 1 : Nat) : ZMod L) * (b + ((3 + 1 : Nat) : ZMod L) * c)⟩,
     ⟨5, a + ((5 + 1 : Nat) : ZMod L) * (b + ((5 + 1 : Nat) : ZMod L) * c)⟩] (by simp) ?_ ?_ 1 2
    (by decide) (by decide) ?_
  · intro s hs
    simp only [List.mem_cons, List.not_mem_nil, or_false] at hs
    rcases hs with rfl | rfl | rfl
    · exact (C126_even a b c 1 (hL 1 (by omega))).1
    · exact (C126_even a b c 3 (hL 3 (by omega))).1
    · exact (C126_even a b c 5 (hL 5 (by omega))).1
  · intro s hs
    simp only [List.mem_cons, List.not_mem_nil, or_false] at hs
    rcases hs with rfl | rfl | rfl
    · exact hL 1 (by omega)
    · exact hL 3 (by omega)
    · exact hL 5 (by omega)
  · intro j hj
    have : j < 3 := hj
    obtain rfl | rfl | rfl : j = 0 ∨ j = 1 ∨ j = 2 := by omega
    · exact ⟨_, List.mem_cons_self .., rfl⟩
    · exact ⟨_, List.mem_cons_of_mem _ (List.mem_cons_self ..), rfl⟩
    · exact ⟨_, List.mem_cons_of_mem _ (List.mem_cons_of_mem _ (List.mem_cons_self ..)), rfl⟩

end Kyber.Ed
