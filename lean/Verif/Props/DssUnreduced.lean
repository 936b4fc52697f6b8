/-
C152: a partial signature that was accepted contributes to a valid signature, whatever bytes it is stored in.
-/
import Verif.Props.EdUnreduced
import Verif.Props.DkgPedersenReshare
import Verif.Lemmas.Dss
import Verif.Props.EdNeighbours

set_option linter.unusedSectionVars false

namespace Kyber.Props

open Kyber.Poly Kyber.Spec

variable {F : Type} [Field F]

/-- Recovery from exactly `t` shares of any values: the weighted sum. -/
theorem recover_weighted (q : Nat) [CharP F q] (ord : MapOrder) (shares : List (Option (Share F))) (J : Finset Nat)
    (hJ : indices shares = J) (y : Nat → F) (hy : ∀ s, some s ∈ shares → s.v = y s.i) :
    recoverSecret ord shares J.card = .ok (∑ i ∈ J, weight F J i * y i) := by
  have hc : J.card ≤ (indices shares).card := by rw [hJ]
  rw [recoverSecret_eq ord shares J.card hc]
  have hk : kset (xy F shares J.card).1 = J := by
    apply Finset.eq_of_subset_of_card_le
    · intro i hi
      rw [← hJ]
      exact kset_subset shares _ hi
    · rw [card_kset, hJ]
      split <;> simp
  have hyv := yval_of_fun (F := F) shares J.card y hy
  rw [hk] at hyv ⊢
  rw [interpolate_weight]
  congr 1
  exact Finset.sum_congr rfl (fun i hi => by rw [hyv i hi])

/-- Recovery from exactly `t` shares, of which all but the one with index `j` are genuine, gives the secret exactly if
that one is genuine too. -/
theorem C152_one_wrong (q : Nat) [CharP F q] (ord : MapOrder) (shares : List (Option (Share F))) (J : Finset Nat)
    (hJ : indices shares = J) (hq : ∀ i ∈ J, i + 1 < q) (y : Nat → F) (hy : ∀ s, some s ∈ shares → s.v = y s.i)
    (cs : List F) (hl : cs.length ≤ J.card) (j : Nat) (hj : j ∈ J)
    (hgen : ∀ i ∈ J, i ≠ j → y i = polyVal cs ((i + 1 : Nat) : F)) :
    ∃ c, recoverSecret ord shares J.card = .ok c ∧ (c = cs.getD 0 0 ↔ y j = polyVal cs ((j + 1 : Nat) : F)) := by
  refine ⟨_, recover_weighted q ord shares J hJ y hy, ?_⟩
  have hinj := xc_injOn (F := F) q J (fun i hi => by have := hq i hi; omega)
  have hw := weights_polyVal (F := F) J hinj cs hl
  have hne : weight F J j ≠ 0 := by
    unfold weight
    rw [Finset.prod_ne_zero_iff]
    intro i hi
    have hi' := Finset.mem_of_mem_erase hi
    refine div_ne_zero ?_ (sub_ne_zero.2 (fun e => Finset.ne_of_mem_erase hi (hinj hi' hj e)))
    rw [Ne, CharP.cast_eq_zero_iff F q]
    intro hd
    have := Nat.le_of_dvd (by omega) hd
    have := hq i hi'
    omega
  rw [← hw, ← sub_eq_zero, ← Finset.sum_sub_distrib, Finset.sum_eq_single j]
  · rw [← mul_sub, mul_eq_zero, sub_eq_zero]
    exact ⟨fun h => h.resolve_left hne, Or.inr⟩
  · intro i hi hij
    rw [hgen i hi hij, sub_self]
  · intro h
    exact absurd hj h

/-- `C152_one_wrong`: the polynomial `5 + 3 x`, the second of two shares one too large. -/
example : ∃ c, recoverSecret MapOrder.id [some ⟨0, (8 : ZMod 11)⟩, some ⟨1, 1⟩] 2 = .ok c ∧ c ≠ 5 := by
  obtain ⟨c, h1, h2⟩ := C152_one_wrong 11 MapOrder.id [some ⟨0, (8 : ZMod 11)⟩, some ⟨1, 1⟩] {0, 1} (by decide)
    (by decide) (fun i => if i = 0 then 8 else 1)
    (by
      intro s hs
      simp only [List.mem_cons, Option.some.injEq, List.not_mem_nil, or_false] at hs
      rcases hs with rfl | rfl <;> rfl)
    [5, 3] (by decide) 1 (by decide) (by decide)
  exact ⟨c, h1, fun h => absurd (h2.1 h) (by decide)⟩

end Kyber.Props

namespace Kyber.Ed

open Kyber Kyber.ModInt Kyber.Poly Kyber.Spec Kyber.Props

/-- C152, in full: a partial signature that `process_partial_sig` accepts is, modulo the order, the sum of the signer's
share of the nonce and of the hash times the signer's share of the key. -/
def C152_statement : Prop :=
  ∀ (rs ls : List (ZMod L)) (random long : List Ext) (h : Bytes) (s : Share Bytes), rs ≠ [] → ls ≠ [] →
    CommitTo random rs → CommitTo long ls → h.length = 32 → leNat h < L → s.v.length = 32 → s.i + 1 < 2 ^ 63 →
    partialFitsExt h random long s = .ok true →
    ((leNat s.v : Nat) : ZMod L) = polyVal rs ((s.i + 1 : Nat) : ZMod L) +
      ((leNat h : Nat) : ZMod L) * polyVal ls ((s.i + 1 : Nat) : ZMod L)

/-- What the check decides for all 32 bytes. -/
theorem C152_check_iff_partial (rs ls : List (ZMod L)) (random long : List Ext) (h : Bytes) (s : Share Bytes) (hrs : rs ≠ [])
    (hls : ls ≠ []) (hr : CommitTo random rs) (hlg : CommitTo long ls) (hh : h.length = 32) (hhL : leNat h < L)
    (hl : s.v.length = 32) (hi : s.i + 1 < 2 ^ 63) :
    ∃ r, partialFitsExt h random long s = .ok r ∧
      (r = true ↔ ((mulVal s.v : Int) : ZMod L) = polyVal rs ((s.i + 1 : Nat) : ZMod L) +
        ((leNat h : Nat) : ZMod L) * polyVal ls ((s.i + 1 : Nat) : ZMod L)) := by
  obtain ⟨u, hu, hur⟩ := pubEval_rep hr (by simpa using hrs) s.i hi
  obtain ⟨w, hw, hwr⟩ := pubEval_rep hlg (by simpa using hls) s.i hi
  refine ⟨_, by unfold partialFitsExt; rw [hu, Res.bind_ok, hw, Res.bind_ok], ?_⟩
  have hm := scalarMultBase_mulVal hl
  have hB := lin_of_order L_smul_base
  have hhs : leNat h < lossFrom := lt_trans hhL (by decide +kernel)
  have hright := scalarMult_mulVal hwr hh
  rw [mulVal_small hhs, Nat.cast_smul_eq_nsmul, val_map] at hright
  rw [val_map] at hur
  have e : leNat h • (polyVal ls ((s.i + 1 : Nat) : ZMod L) • basePt) =
      (((leNat h : Nat) : ZMod L) * polyVal ls ((s.i + 1 : Nat) : ZMod L)) • basePt := by
    rw [hB.mul, act_mod (L_smul_act _)]
  rw [e] at hright
  have hsum := ptAdd_rep hur hright
  rw [ptEq_iff hm hsum, ← hB.add, ← act_int]
  exact ⟨fun h => base_inj h, fun h => by rw [h]⟩

/-- The claim holds for the bytes below `lossFrom` and for no others. -/
theorem C152_exact_partial (v : Bytes) (hl : v.length = 32) (i : Nat) (hi : i + 1 < 2 ^ 63) :
    (∀ (rs ls : List (ZMod L)) (random long : List Ext) (h : Bytes), rs ≠ [] → ls ≠ [] → CommitTo random rs →
      CommitTo long ls → h.length = 32 → leNat h < L → partialFitsExt h random long ⟨i, v⟩ = .ok true →
      ((leNat v : Nat) : ZMod L) = polyVal rs ((i + 1 : Nat) : ZMod L) +
        ((leNat h : Nat) : ZMod L) * polyVal ls ((i + 1 : Nat) : ZMod L)) ↔ leNat v < lossFrom := by
  constructor
  · intro hall
    obtain ⟨rep, hrep⟩ := exists_rep
    have h1 : CommitTo [(rep (((mulVal v : Int) : ZMod L) • basePt)).ge] [((mulVal v : Int) : ZMod L)] :=
      .cons (hrep _) .nil
    have h2 : CommitTo [(rep ((0 : ZMod L) • basePt)).ge] [0] := .cons (hrep _) .nil
    have hz : leNat scZero = 0 := by decide +kernel
    have hzL : leNat scZero < L := by rw [hz]; exact prime_L.pos
    obtain ⟨r, k1, k2⟩ := C152_check_iff_partial _ _ _ _ scZero ⟨i, v⟩ (List.cons_ne_nil _ _) (List.cons_ne_nil _ _) h1 h2
      rfl hzL hl hi
    have e1 : polyVal [((mulVal v : Int) : ZMod L)] ((i + 1 : Nat) : ZMod L) = ((mulVal v : Int) : ZMod L) := by
      simp [polyVal]
    rw [e1, hz, Nat.cast_zero, zero_mul, add_zero] at k2
    have := hall _ _ _ _ scZero (List.cons_ne_nil _ _) (List.cons_ne_nil _ _) h1 h2 rfl hzL (by rw [k1, k2.2 rfl])
    rw [e1, hz, Nat.cast_zero, zero_mul, add_zero] at this
    exact (mulVal_cast_iff hl).1 this.symm
  · intro hlt rs ls random long h h1 h2 h3 h4 h5 h6 h7
    obtain ⟨r, k1, k2⟩ := C152_check_iff_partial rs ls random long h ⟨i, v⟩ h1 h2 h3 h4 h5 h6 hl hi
    rw [k1, Res.ok.injEq] at h7
    rw [← k2.1 h7, (mulVal_cast_iff hl).2 hlt]

theorem C152_violated : ¬ C152_statement := by
  intro h
  have := (C152_exact_partial bigScalar (by decide) 0 (by norm_num)).1
    (fun rs ls random long hb h1 h2 h3 h4 h5 h6 => h rs ls random long hb ⟨0, bigScalar⟩ h1 h2 h3 h4 h5 h6 (by decide)
      (by norm_num))
  revert this
  decide +kernel

theorem verifies_iff (sha : Bytes → Bytes) (r a γ : ZMod L) (msg : Bytes) :
    Rfc8032.Verifies sha 1 (ptEnc (a • basePt)) msg (ptEnc (r • basePt) ++ leBytes 32 γ.val) ↔
      γ = r + ((leNat (sha (ptEnc (r • basePt) ++ ptEnc (a • basePt) ++ msg)) : Nat) : ZMod L) * a := by
  have hB := lin_of_order L_smul_base
  have hγ : leNat (leBytes 32 γ.val) = γ.val := by
    rw [leNat_leBytes, Nat.mod_eq_of_lt]
    exact lt_of_lt_of_le (ZMod.val_lt γ) (by decide +kernel)
  unfold Rfc8032.Verifies
  simp only [take_enc, drop_enc, hγ, one_smul]
  constructor
  · rintro ⟨-, R, A, hR, hA, -, he⟩
    rw [ptEnc_inj (enc_of_decodes hR), ptEnc_inj (enc_of_decodes hA), ← act_def, ← act_mod (L_smul_act a), ← hB.mul,
      ← hB.add] at he
    exact base_inj he
  · intro h
    refine ⟨by rw [List.length_append, length_ptEnc, length_leBytes], _, _, decodes_enc _, decodes_enc _, ZMod.val_lt γ, ?_⟩
    rw [← act_def, ← act_mod (L_smul_act a), ← hB.mul, ← hB.add, h]

/-- What it means for the signature: `t` accepted partial signatures with different indices, all but the one with index `j`
below `lossFrom`. `recover_secret` computes with the values modulo the order. The signature that results is valid exactly
if that last one is below `lossFrom` too: one participant can make it invalid with a partial signature that everyone
accepts. -/
theorem C152_signature_partial (sha : Bytes → Bytes) (ord : MapOrder) (msg : Bytes) (r a : ZMod L) (rs ls : List (ZMod L))
    (random long : List Ext) (h : Bytes) (J : Finset Nat) (hr : CommitTo random (r :: rs)) (hlg : CommitTo long (a :: ls))
    (hlen : rs.length = ls.length) (hdeg : (r :: rs).length ≤ J.card) (hh : h.length = 32)
    (hhv : leNat h = leNat (sha (ptEnc (r • basePt) ++ ptEnc (a • basePt) ++ msg)) % L)
    (hi : ∀ i ∈ J, i + 1 < 2 ^ 63) (v : Nat → Bytes) (hv : ∀ i ∈ J, (v i).length = 32)
    (hacc : ∀ i ∈ J, partialFitsExt h random long ⟨i, v i⟩ = .ok true)
    (j : Nat) (hj : j ∈ J) (hsmall : ∀ i ∈ J, i ≠ j → leNat (v i) < lossFrom)
    (shares : List (Option (Share (ZMod L)))) (hJ : indices shares = J)
    (hy : ∀ s, some s ∈ shares → s.v = ((leNat (v s.i) : Nat) : ZMod L)) :
    ∃ γ, recoverSecret ord shares J.card = .ok γ ∧
      (Rfc8032.Verifies sha 1 (ptEnc (a • basePt)) msg (ptEnc (r • basePt) ++ leBytes 32 γ.val) ↔
        leNat (v j) < lossFrom) := by
  set k : ZMod L := ((leNat h : Nat) : ZMod L) with hk
  have hhL : leNat h < L := by rw [hhv]; exact Nat.mod_lt _ prime_L.pos
  have hkv : k = ((leNat (sha (ptEnc (r • basePt) ++ ptEnc (a • basePt) ++ msg)) : Nat) : ZMod L) := by
    rw [hk, hhv, ZMod.natCast_mod]
  have hval : ∀ x : ZMod L, polyVal (List.zipWith (· + ·) (r :: rs) ((a :: ls).map (k * ·))) x =
      polyVal (r :: rs) x + k * polyVal (a :: ls) x := by
    intro x
    rw [polyVal_zipWith_add (by simpa using hlen), Dss.polyVal_map_mul]
  have hmul : ∀ i ∈ J, ((mulVal (v i) : Int) : ZMod L) =
      polyVal (List.zipWith (· + ·) (r :: rs) ((a :: ls).map (k * ·))) ((i + 1 : Nat) : ZMod L) := by
    intro i hiJ
    obtain ⟨b, k1, k2⟩ := C152_check_iff_partial (r :: rs) (a :: ls) random long h ⟨i, v i⟩ (List.cons_ne_nil _ _)
      (List.cons_ne_nil _ _) hr hlg hh hhL (hv i hiJ) (hi i hiJ)
    have := hacc i hiJ
    rw [k1, Res.ok.injEq] at this
    rw [hval]
    exact k2.1 this
  obtain ⟨γ, h1, h2⟩ := C152_one_wrong L ord shares J hJ
    (fun i hiJ => lt_trans (hi i hiJ) (by decide +kernel)) (fun i => ((leNat (v i) : Nat) : ZMod L)) hy
    (List.zipWith (· + ·) (r :: rs) ((a :: ls).map (k * ·)))
    (by rw [List.length_zipWith, List.length_map]; exact le_trans (min_le_left _ _) hdeg) j hj
    (fun i hiJ hij => by rw [← hmul i hiJ, (mulVal_cast_iff (hv i hiJ)).2 (hsmall i hiJ hij)])
  refine ⟨γ, h1, ?_⟩
  rw [verifies_iff, ← hkv]
  have h0 : (List.zipWith (· + ·) (r :: rs) ((a :: ls).map (k * ·))).getD 0 0 = r + k * a := rfl
  rw [h0] at h2
  rw [h2, ← hmul j hj, eq_comm, mulVal_cast_iff (hv j hj)]

/-- A case, for every message: two signers, the key `1 + x` and a nonce polynomial with constant term 1. Participant 0
sends the right partial signature, participant 1 the value 3 that it owes plus `9 * 16^63`. Both are accepted, and the
signature is not valid. -/
example (sha : Bytes → Bytes) (ord : MapOrder) (msg : Bytes) :
    ∃ (rs : List (ZMod L)) (random long : List Ext) (h : Bytes) (v : Nat → Bytes) (γ : ZMod L),
      CommitTo random (1 :: rs) ∧ CommitTo long [1, 1] ∧
      leNat h = leNat (sha (ptEnc ((1 : ZMod L) • basePt) ++ ptEnc ((1 : ZMod L) • basePt) ++ msg)) % L ∧
      partialFitsExt h random long ⟨0, v 0⟩ = .ok true ∧ partialFitsExt h random long ⟨1, v 1⟩ = .ok true ∧
      recoverSecret ord [some ⟨0, ((leNat (v 0) : Nat) : ZMod L)⟩, some ⟨1, ((leNat (v 1) : Nat) : ZMod L)⟩] 2 = .ok γ ∧
      ¬ Rfc8032.Verifies sha 1 (ptEnc ((1 : ZMod L) • basePt)) msg (ptEnc ((1 : ZMod L) • basePt) ++ leBytes 32 γ.val) := by
  obtain ⟨rep, hrep⟩ := exists_rep
  obtain ⟨n, hn⟩ : ∃ n, n = leNat (sha (ptEnc ((1 : ZMod L) • basePt) ++ ptEnc ((1 : ZMod L) • basePt) ++ msg)) % L :=
    ⟨_, rfl⟩
  have hnL : n < L := by rw [hn]; exact Nat.mod_lt _ prime_L.pos
  obtain ⟨hb, hbl, hh⟩ : ∃ hb : Bytes, hb.length = 32 ∧ leNat hb = n := by
    refine ⟨leBytes 32 n, length_leBytes _ _, ?_⟩
    rw [leNat_leBytes, Nat.mod_eq_of_lt]
    exact lt_of_lt_of_le hnL (by decide +kernel)
  have h2 : (2 : ZMod L) ≠ 0 := by
    have : ((2 : Nat) : ZMod L) ≠ 0 := by
      rw [Ne, ZMod.natCast_eq_zero_iff]
      decide +kernel
    exact_mod_cast this
  obtain ⟨ρ, hρ⟩ : ∃ ρ : ZMod L, ρ * 2 = 3 - 1 - (n : ZMod L) * (1 + 2) := ⟨_, div_mul_cancel₀ _ h2⟩
  obtain ⟨w, hw⟩ : ∃ w : ZMod L, w = 1 + ρ + (n : ZMod L) * 2 := ⟨_, rfl⟩
  obtain ⟨b0, l0, s0, m0⟩ : ∃ b : Bytes, b.length = 32 ∧ leNat b < lossFrom ∧ ((mulVal b : Int) : ZMod L) = w := by
    have hwv : leNat (leBytes 32 w.val) = w.val := by
      rw [leNat_leBytes, Nat.mod_eq_of_lt]
      exact lt_of_lt_of_le (ZMod.val_lt w) (by decide +kernel)
    have hws : leNat (leBytes 32 w.val) < lossFrom := by
      rw [hwv]
      exact lt_trans (ZMod.val_lt w) (by decide +kernel)
    exact ⟨_, length_leBytes _ _, hws, by rw [mulVal_small hws, hwv, Int.cast_natCast, ZMod.natCast_zmod_val]⟩
  obtain ⟨b1, l1, s1, m1⟩ : ∃ b : Bytes, b.length = 32 ∧ ¬ leNat b < lossFrom ∧ mulVal b = 3 := by
    have hbig : leNat (leBytes 32 (9 * 16 ^ 63 + 3)) = 9 * 16 ^ 63 + 3 := by decide +kernel
    have ht : topDigit (leBytes 32 (9 * 16 ^ 63 + 3)) = 9 := by
      unfold topDigit
      rw [hbig]
      decide +kernel
    refine ⟨_, length_leBytes 32 (9 * 16 ^ 63 + 3), by rw [hbig]; decide +kernel, ?_⟩
    unfold mulVal
    rw [ht, hbig]
    norm_num
  obtain ⟨random, c1⟩ : ∃ us, CommitTo us [1, ρ] := ⟨[_, _], .cons (hrep _) (.cons (hrep _) .nil)⟩
  obtain ⟨long, c2⟩ : ∃ us, CommitTo us [1, 1] := ⟨[_, _], .cons (hrep _) (.cons (hrep _) .nil)⟩
  have a0 : partialFitsExt hb random long ⟨0, b0⟩ = .ok true := by
    obtain ⟨r, k1, k2⟩ := C152_check_iff_partial [1, ρ] [1, 1] _ _ hb ⟨0, b0⟩ (by simp) (by simp)
      c1 c2 hbl (by rw [hh]; exact hnL) l0 (by norm_num)
    rw [k1, k2.2]
    rw [m0, hh, hw]
    simp [polyVal, Finset.sum_range_succ]
    norm_num
  have a1 : partialFitsExt hb random long ⟨1, b1⟩ = .ok true := by
    obtain ⟨r, k1, k2⟩ := C152_check_iff_partial [1, ρ] [1, 1] _ _ hb ⟨1, b1⟩ (by simp)
      (by simp) c1 c2 hbl (by rw [hh]; exact hnL) l1 (by norm_num)
    rw [k1, k2.2]
    rw [m1, hh]
    simp only [polyVal, List.length_cons, List.length_nil, Finset.sum_range_succ, Finset.sum_range_zero]
    norm_num
    linear_combination -hρ
  obtain ⟨v, v0, v1⟩ : ∃ v : Nat → Bytes, v 0 = b0 ∧ v 1 = b1 := ⟨fun i => if i = 0 then b0 else b1, rfl, rfl⟩
  rw [← v0] at l0 s0 a0
  rw [← v1] at l1 s1 a1
  obtain ⟨γ, g1, g2⟩ := C152_signature_partial sha ord msg 1 1 [ρ] [1] random long hb {0, 1} c1 c2 rfl (by simp)
    hbl (by rw [hh, hn]) (by intro i hi; simp at hi; rcases hi with rfl | rfl <;> norm_num) v
    (by intro i hi; simp at hi; rcases hi with rfl | rfl; exacts [l0, l1])
    (by intro i hi; simp at hi; rcases hi with rfl | rfl; exacts [a0, a1])
    1 (by simp) (by
      intro i hi hne
      simp at hi
      rcases hi with rfl | rfl
      · exact s0
      · exact absurd rfl hne)
    [some ⟨0, ((leNat (v 0) : Nat) : ZMod L)⟩, some ⟨1, ((leNat (v 1) : Nat) : ZMod L)⟩]
    (by simp [indices]) (by
      intro s hs
      simp only [List.mem_cons, Option.some.injEq, List.not_mem_nil, or_false] at hs
      rcases hs with rfl | rfl <;> rfl)
  exact ⟨[ρ], random, long, hb, v, γ, c1, c2, hh.trans hn, a0, a1, g1, fun h => s1 (g2.1 h)⟩

/-- `C152_exact_partial`: a partial signature below the group order is checked in earnest. -/
example := (C152_exact_partial scOne (by decide) 0 (by norm_num)).2 (by decide +kernel)

end Kyber.Ed
