/-
Property C114: the evaluation points of shares for every index of the machine (`src/share/poly.rs`).
-/
import Verif.Lemmas.Index
import Verif.Lemmas.Ed.Scalar

namespace Kyber.Props

open Kyber Kyber.Poly Kyber.Spec

variable {F G : Type} [Field F]

/-! ## C114: each index has an evaluation point of its own -/

/-- The point at which share `i` is evaluated: `i + 1`, or `i + 1 - 2^64` from `2^63 - 1` on. -/
def shareX (i : Nat) : Int := if i + 1 < 2 ^ 63 then (i : Int) + 1 else (i : Int) + 1 - 2 ^ 64

/-- C114: private and public shares are evaluated at the same point, for every `usize` index. -/
theorem C114_eval [AddCommGroup G] [SMul F G] (i : Nat) (hi : i < 2 ^ 64) :
    (∀ p : PriPoly F, p.eval64 i = ⟨i, polyVal p.coeffs (shareX i : F)⟩) ∧
    (∀ P : PubPoly G, P.commits ≠ [] →
      P.eval64 F i = .ok ⟨i, pointVal P.commits (shareX i : F)⟩) := by
  have hx : evalCoord i = shareX i := evalCoord_eq hi
  constructor
  · intro p
    rw [← hx, ← eval64_v]; rfl
  · intro P hP
    unfold PubPoly.eval64
    rw [if_neg (by simpa using hP), pointVal_eq_foldr, ← hx]


example := C114_eval (F := ZMod Ed.L) (G := ZMod Ed.L) (2 ^ 64 - 2) (by norm_num)

/-- C114: over a field of characteristic at least `2^64` different indices have different points. -/
theorem C114_distinct (q : Nat) [CharP F q] (hq : 2 ^ 64 ≤ q) (i j : Nat) (hi : i < 2 ^ 64)
    (hj : j < 2 ^ 64) (hne : i ≠ j) : (shareX i : F) ≠ (shareX j : F) := by
  rw [← show evalCoord i = shareX i from evalCoord_eq hi,
    ← show evalCoord j = shareX j from evalCoord_eq hj]
  exact fun h => hne (evalCoord_inj hi hj q hq h)


example := C114_distinct (F := ZMod Ed.L) Ed.L (by decide +kernel) 0 (2 ^ 64 - 1) (by norm_num) (by norm_num)
  (by norm_num)

theorem xc64_injOn (q : Nat) [CharP F q] (hq : 2 ^ 64 ≤ q) (S : Finset Nat) (h : ∀ i ∈ S, i < 2 ^ 64) :
    Set.InjOn (xc64 F) S := fun a ha b hb hab => evalCoord_inj (h a ha) (h b hb) q hq hab

/-- C114: reconstruction works for arbitrary `usize` indices. -/
theorem C114_recover_secret (q : Nat) [CharP F q] (hq : 2 ^ 64 ≤ q) (ord : MapOrder) (secret : F)
    (cs : List F) (shares : List (Option (Share F))) (t : Nat)
    (hgen : ∀ s, some s ∈ shares → s = (⟨secret :: cs⟩ : PriPoly F).eval64 s.i)
    (hidx : ∀ i ∈ indices shares, i < 2 ^ 64)
    (hdeg : (secret :: cs).length ≤ t) (hcount : t ≤ (indices shares).card) :
    recoverSecret64 ord shares t = .ok secret := by
  rw [recoverSecret64_eq ord shares t hcount]
  have hy := yval_of_fun (F := F) shares t (fun k => polyVal (secret :: cs) (xc64 F k))
    (fun s hs => by rw [hgen s hs, eval64_v]; rfl)
  rw [Finset.sum_congr rfl (fun k hk => by rw [hy k hk])]
  rw [sum_lagAt]
  · exact xc64_injOn q hq _ (fun i hi => hidx i (kset_subset shares t hi))
  · rw [card_kset]; split <;> omega


example : recoverSecret64 MapOrder.id [some ((⟨[5, 3]⟩ : PriPoly (ZMod Ed.L)).eval64 0), none,
    some ((⟨[5, 3]⟩ : PriPoly (ZMod Ed.L)).eval64 (2 ^ 64 - 2))] 2 = .ok 5 :=
  C114_recover_secret Ed.L (by decide +kernel) MapOrder.id 5 [3] _ 2
    (by
      intro s hs
      simp only [List.mem_cons, Option.some.injEq, List.not_mem_nil, or_false, reduceCtorEq, false_or] at hs
      rcases hs with rfl | rfl <;> rfl)
    (by
      intro i hi
      simp [indices, PriPoly.eval64] at hi
      omega)
    (by decide) (by simp [indices, PriPoly.eval64])

/-- C114: the same for public shares. -/
theorem C114_recover_commit [AddCommGroup G] [SMul F G] (q : Nat) [CharP F q] (hq : 2 ^ 64 ≤ q)
    (ord : MapOrder) (secret : F) (cs : List F) (B : G) (hB : Lin F B)
    (shares : List (Option (Share G))) (t : Nat)
    (hgen : ∀ s, some s ∈ shares → s.v = ((⟨secret :: cs⟩ : PriPoly F).eval64 s.i).v • B)
    (hidx : ∀ i ∈ indices shares, i < 2 ^ 64)
    (hdeg : (secret :: cs).length ≤ t) (hcount : t ≤ (indices shares).card) :
    recoverCommit64 (F := F) ord shares t = .ok (secret • B) := by
  rw [recoverCommit64_eq ord shares t hcount]
  have hy := yval_of_fun (F := F) shares t (fun k => polyVal (secret :: cs) (xc64 F k) • B)
    (fun s hs => by rw [hgen s hs, eval64_v]; rfl)
  rw [Finset.sum_congr rfl (fun k hk => by rw [hy k hk, ← hB.mul, mul_comm]), ← hB.sum]
  rw [sum_lagAt]
  · exact xc64_injOn q hq _ (fun i hi => hidx i (kset_subset shares t hi))
  · rw [card_kset]; split <;> omega

/-- C114, secrecy for every index of the machine: fewer than `t` shares are compatible with every
secret. -/
def C114_statement : Prop :=
  ∀ (F : Type) [Field F] (q : Nat) [CharP F q], 2 ^ 64 ≤ q →
  ∀ (t : Nat) (S : Finset Nat), (∀ i ∈ S, i < 2 ^ 64) → S.card < t →
  ∀ (observed : Nat → F) (secret : F),
    ∃ p : PriPoly F, p.threshold = t ∧ p.secret = .ok secret ∧ ∀ i ∈ S, (p.eval64 i).v = observed i

/-- The share with index `usize::MAX` is the secret. -/
theorem C114_violated_max_share (p : PriPoly F) (hp : p.coeffs ≠ []) :
    p.secret = .ok (p.eval64 (2 ^ 64 - 1)).v := by
  obtain ⟨cs⟩ := p
  cases cs with
  | nil => simp at hp
  | cons s cs =>
    have h : evalCoord (2 ^ 64 - 1) = 0 := by decide
    unfold PriPoly.eval64
    rw [h]
    simp [PriPoly.secret]

/-- C114 is violated by that index. -/
theorem C114_violated : ¬ C114_statement := by
  intro h
  obtain ⟨p, h1, h2, h3⟩ := h (ZMod Ed.L) Ed.L (by decide +kernel) 2 {2 ^ 64 - 1} (by simp) (by simp)
    (fun _ => 1) 0
  have hp : p.coeffs ≠ [] := by
    intro h; simp [PriPoly.threshold, h] at h1
  rw [C114_violated_max_share p hp, h3 _ (by simp)] at h2
  simp at h2

/-- C114 holds for all other indices. -/
theorem C114_secrecy_partial (q : Nat) [CharP F q] (hq : 2 ^ 64 ≤ q) (t : Nat) (S : Finset Nat)
    (hS : ∀ i ∈ S, i < 2 ^ 64 - 1) (hcard : S.card < t) (observed : Nat → F) (secret : F) :
    ∃ p : PriPoly F, p.threshold = t ∧ p.secret = .ok secret ∧
      ∀ i ∈ S, (p.eval64 i).v = observed i := by
  obtain ⟨cs, h1, h2⟩ := exists_poly_at (xc64 F) S
    (xc64_injOn q hq S (fun i hi => by have := hS i hi; omega))
    (fun i hi h => by
      have h' := hS i hi
      have := (evalCoord_zero (F := F) (show i < USIZE by unfold USIZE; omega) q hq).1 h
      unfold USIZE at this; omega) observed secret t hcard
  exact ⟨⟨secret :: cs⟩, h1, rfl, fun i hi => by rw [eval64_v]; exact h2 i hi⟩


example := C114_secrecy_partial (F := ZMod Ed.L) Ed.L (by decide +kernel) 3 {0, 7}
  (by intro i hi; simp at hi; omega) (by decide) (fun i => i + 1) 42

/-- A share with index `usize::MAX` that takes part in a reconstruction dictates its result, whatever
the other shares are. -/
theorem C114_violated_dictated (q : Nat) [CharP F q] (hq : 2 ^ 64 ≤ q) (ord : MapOrder)
    (shares : List (Option (Share F))) (t : Nat) (v : F)
    (hidx : ∀ i ∈ indices shares, i < 2 ^ 64)
    (hcount : (indices shares).card = t)
    (hmax : some ⟨2 ^ 64 - 1, v⟩ ∈ shares)
    (honly : ∀ s, some s ∈ shares → s.i = 2 ^ 64 - 1 → s.v = v) :
    recoverSecret64 ord shares t = .ok v := by
  classical
  rw [recoverSecret64_eq ord shares t (le_of_eq hcount.symm)]
  have hmem : (2 ^ 64 - 1 : Nat) ∈ indices shares := mem_indices.2 ⟨_, hmax, rfl⟩
  have hpos : 0 < t := by rw [← hcount]; exact Finset.card_pos.2 ⟨_, hmem⟩
  have hset : kset (xy F shares t).1 = indices shares := by
    apply Finset.eq_of_subset_of_card_le (kset_subset shares t)
    rw [card_kset, if_neg (by omega), hcount]; simp
  have hlag := lagAt_zero (xc64 F) (S := indices shares) hmem
    ((evalCoord_zero (F := F) (show 2 ^ 64 - 1 < USIZE by unfold USIZE; omega) q hq).2 rfl)
    (fun i hi hne h => hne ((evalCoord_zero (F := F) (hidx i hi) q hq).1 h))
  rw [hset, Finset.sum_congr rfl (fun k hk => by rw [hlag k hk]), Finset.sum_eq_single_of_mem _ hmem]
  · rw [if_pos rfl, mul_one]
    congr 1
    obtain ⟨hk, -, -, -, hy, -⟩ := xy_spec (F := F) shares t
    have hkm : (2 ^ 64 - 1 : Nat) ∈ (xy F shares t).2.keys := by
      rw [hk, ← mem_kset, hset]; exact hmem
    obtain ⟨w, hw⟩ := AMap.get_of_mem_keys hkm
    obtain ⟨s, hs, h1, h2⟩ := hy _ (AMap.mem_of_get hw)
    simp only at h1 h2
    rw [show yval (xy F shares t).2 (2 ^ 64 - 1) = w by simp only [yval, hw, Option.getD_some], ← h2]
    exact honly s hs h1
  · intro k _ hne
    rw [if_neg hne, mul_zero]

/-- For indices below `2^63 - 1` (every index of a list in memory) the machine arithmetic is the
idealised one, so all other properties of secret sharing hold for the code. -/
theorem C114_idealised [AddCommGroup G] [SMul F G] (ord : MapOrder) (t : Nat) :
    (∀ (p : PriPoly F) (i : Nat), i < 2 ^ 63 - 1 → p.eval64 i = p.eval i) ∧
    (∀ (P : PubPoly G) (i : Nat), i < 2 ^ 63 - 1 → P.eval64 F i = P.eval F i) ∧
    (∀ shares : List (Option (Share F)), (∀ i ∈ indices shares, i < 2 ^ 63 - 1) →
      recoverSecret64 ord shares t = recoverSecret ord shares t ∧
      recoverPriPoly64 ord shares t = recoverPriPoly ord shares t) ∧
    (∀ (base : G) (shares : List (Option (Share G))), (∀ i ∈ indices shares, i < 2 ^ 63 - 1) →
      recoverCommit64 (F := F) ord shares t = recoverCommit (F := F) ord shares t ∧
      recoverPubPoly64 (F := F) base ord shares t = recoverPubPoly (F := F) base ord shares t) := by
  have hc : ∀ i, i < 2 ^ 63 - 1 → (evalCoord i : F) = xc F i := by
    intro i hi
    rw [evalCoord_eq (show i < USIZE by unfold USIZE; omega), if_pos (by omega)]
    unfold xc; push_cast; rfl
  have hxy : ∀ {α : Type} (shares : List (Option (Share α))), (∀ i ∈ indices shares, i < 2 ^ 63 - 1) →
      xy64 F shares t = xy F shares t := by
    intro α shares h
    obtain ⟨-, -, hx, hk, -, -⟩ := xy_spec (F := F) shares t
    rw [xy64_eq]
    apply Prod.ext
    · show List.map _ _ = _
      conv_rhs => rw [← List.map_id (xy F shares t).1]
      refine List.map_congr_left (fun e he => ?_)
      have := hc e.1 (h _ (hk e.1 (AMap.mem_keys.2 ⟨e.2, he⟩)))
      apply Prod.ext
      · rfl
      · show xc64 F e.1 = e.2
        rw [hx e he]; exact this
    · rfl
  refine ⟨?_, ?_, ?_, ?_⟩
  · intro p i hi
    unfold PriPoly.eval64 PriPoly.eval
    rw [hc i hi]
  · intro P i hi
    unfold PubPoly.eval64 PubPoly.eval
    rw [hc i hi]
  · intro shares h
    unfold recoverSecret64 recoverSecret recoverPriPoly64 recoverPriPoly
    rw [hxy shares h]
    exact ⟨rfl, rfl⟩
  · intro base shares h
    unfold recoverCommit64 recoverCommit recoverPubPoly64 recoverPubPoly
    rw [hxy shares h]
    exact ⟨rfl, rfl⟩

/-- Secret sharing with indices around the wrap-around: the polynomial `5 + 3x`, shares at
`2^63 - 1` (point `-2^63`) and `2^64 - 2` (point `-1`). -/
example : ((⟨[5, 3]⟩ : PriPoly ℚ).eval64 (2 ^ 63 - 1)).v = 5 - 3 * 2 ^ 63 ∧
    ((⟨[5, 3]⟩ : PriPoly ℚ).eval64 (2 ^ 64 - 2)).v = 2 ∧
    ((⟨[5, 3]⟩ : PriPoly ℚ).eval64 (2 ^ 64 - 1)).v = 5 := by
  refine ⟨?_, ?_, ?_⟩ <;> decide +kernel

/-- Two shares with unrelated values, one with index `usize::MAX`. -/
example : recoverSecret64 MapOrder.id [some ⟨2 ^ 64 - 1, (42 : ℚ)⟩, some ⟨3, 7⟩] 2 = .ok 42 := by
  decide +kernel

/-- The scalars of edwards25519 have a characteristic of that size. -/
example : CharP (ZMod Ed.L) Ed.L ∧ 2 ^ 64 ≤ Ed.L := ⟨inferInstance, by decide +kernel⟩

/-- The public key from commitments to shares around the wrap-around. -/
example (B : ZMod Ed.L) : recoverCommit64 (F := ZMod Ed.L) MapOrder.id
    [some ⟨0, ((⟨[5, 3]⟩ : PriPoly (ZMod Ed.L)).eval64 0).v • B⟩, none,
      some ⟨2 ^ 64 - 2, ((⟨[5, 3]⟩ : PriPoly (ZMod Ed.L)).eval64 (2 ^ 64 - 2)).v • B⟩] 2 = .ok ((5 : ZMod Ed.L) • B) :=
  C114_recover_commit Ed.L (by decide +kernel) MapOrder.id 5 [3] B (Lin.of_module _) _ 2
    (by
      intro s hs
      simp only [List.mem_cons, Option.some.injEq, List.not_mem_nil, or_false, reduceCtorEq, false_or] at hs
      rcases hs with rfl | rfl <;> rfl)
    (by
      intro i hi
      simp [indices] at hi
      omega)
    (by decide) (by simp [indices])

end Kyber.Props
