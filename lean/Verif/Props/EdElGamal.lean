/-
C124: data encrypted to a key, or to a shared key, is recovered by its holders.
-/
import Verif.Model.Ed.ElGamal
import Verif.Props.EdRuns

namespace Kyber.Ed

open Kyber Kyber.ModInt Kyber.Poly Kyber.Spec Kyber.Props Kyber.ElGamal

/-! ## One holder -/

/-- C124: what is encrypted to the public key of `x` is decrypted with `x`: data and remainder are the message.
Both scalars may be any value below `2 ^ 255`. -/
theorem C124_round_trip {σ : Type} (S : Rand.Stream σ) (fuel : Nat) (self : Ext) (st : σ) (x k : Bytes)
    (hx : x.length = 32) (hk : k.length = 32) (hx' : leNat x < 2 ^ 255) (hk' : leNat k < 2 ^ 255)
    (message rest : Bytes) (kP c : Ext)
    (h : elGamalEncrypt S fuel self st k (ptMul x none) message = some (.ok (kP, c, rest))) :
    ∃ d, elGamalDecrypt x kP c = some d ∧ d ++ rest = message ∧ d.length = min 29 message.length := by
  unfold elGamalEncrypt at h
  split at h
  · cases h
  · cases h
  · cases h
  · rename_i m hm
    simp only [Option.some.injEq, Res.ok.injEq, Prod.mk.injEq] at h
    obtain ⟨rfl, rfl, rfl⟩ := h
    obtain ⟨hv, -⟩ := C59_embed_subgroup S message fuel self st m hm
    have hd := C59_embed S message fuel self st m hm
    have r1 := ptSub_rep (ptAdd_rep (mulPt hk hk' (mulBase hx hx')) hv.rep) (mulPt hx hx' (mulBase hk hk'))
    have e : leNat k • leNat x • basePt + hv.pt - leNat x • leNat k • basePt = hv.pt := by
      rw [smul_comm, add_sub_cancel_left]
    rw [e] at r1
    refine ⟨message.take 29, ?_, ?_, by rw [List.length_take]⟩
    · rw [← hd]
      unfold elGamalDecrypt ptData
      simp only
      rw [bytes_eq r1, bytes_eq hv.rep]
    · have : (if embedLen > message.length then message.length else embedLen) = min 29 message.length := by
        rw [show embedLen = 29 from rfl]
        split <;> omega
      rw [this, List.take_eq_take_min, List.take_append_drop]

/-- Encryption returns whenever `embed` does, and panics only if the stream fails. -/
theorem C124_encrypt_returns {σ : Type} (S : Rand.Stream σ) (fuel : Nat) (self : Ext) (st : σ) (k : Bytes)
    (pub : Ext) (message : Bytes) :
    (∃ r, elGamalEncrypt S fuel self st k pub message = some (.ok r)) ↔
      ∃ m, embed S (some message) fuel self st = some (.ok m) := by
  unfold elGamalEncrypt
  split <;> simp_all

example (self : Ext) : ∃ kP c d, elGamalEncrypt zeroStream 1 self () (leBytes 32 3) (ptMul (leBytes 32 5) none) [0] =
    some (.ok (kP, c, [])) ∧ elGamalDecrypt (leBytes 32 5) kP c = some d ∧ d = [0] := by
  obtain ⟨⟨kP, c, rest⟩, h⟩ := (C124_encrypt_returns zeroStream 1 self () (leBytes 32 3) (ptMul (leBytes 32 5) none) [0]).2
    (embed_example self)
  obtain ⟨d, h1, h2, h3⟩ := C124_round_trip zeroStream 1 self () (leBytes 32 5) (leBytes 32 3) (length_leBytes _ _)
    (length_leBytes _ _) (by decide +kernel) (by decide +kernel) [0] rest kP c h
  have hr : rest = [] := by
    have := congrArg List.length h2
    rw [List.length_append, h3] at this
    exact List.length_eq_zero_iff.1 (by simpa using this)
  subst hr
  exact ⟨kP, c, d, h, h1, by simpa using h2⟩

end Kyber.Ed

namespace Kyber.ElGamal

open Kyber Kyber.Poly Kyber.Spec Kyber.Props

variable {F G : Type} [Field F] [AddCommGroup G] [DistribSMul F G]

/-! ## Holders of shares -/

theorem lag_sum (q : Nat) [CharP F q] (S : Finset Nat) (hS : ∀ i ∈ S, i < q) (x : F) (cs : List F)
    (hc : (x :: cs).length ≤ S.card) :
    ∑ k ∈ S, lag0 F S k * polyVal (x :: cs) ((k + 1 : Nat) : F) = x := by
  have hint := interpolate_genuine (⟨x :: cs⟩ : PriPoly F) S (xc_injOn q _ hS) hc
    (fun k => polyVal (x :: cs) ((k + 1 : Nat) : F)) (fun k _ => by rw [eval_v])
  have h0 := congrArg (Polynomial.eval 0) hint
  rw [eval_zero_toPoly, Lagrange.interpolate_apply, Polynomial.eval_finsetSum] at h0
  simp only [List.headD_cons] at h0
  refine Eq.trans (Finset.sum_congr rfl (fun k _ => ?_)) h0
  rw [lag0_eq_eval_basis, Polynomial.eval_mul, Polynomial.eval_C, mul_comm]

theorem smul_sum_lin {B : G} (hB : Lin F B) (S : Finset Nat) (f : Nat → F) :
    ∑ k ∈ S, f k • B = (∑ k ∈ S, f k) • B := by
  induction S using Finset.induction_on with
  | empty => rw [Finset.sum_empty, Finset.sum_empty, hB.zero]
  | insert a S ha ih => rw [Finset.sum_insert ha, Finset.sum_insert ha, hB.add, ih]

/-- The point that `recover_commit` computes from values that depend on the index only. -/
theorem recoverCommit_fun (ord : MapOrder) (shares : List (Share F)) (f : Share F → Share G) (g : Nat → G)
    (hi : ∀ s ∈ shares, (f s).i = s.i) (hf : ∀ s ∈ shares, (f s).v = g s.i) (t : Nat) (ht : 0 < t)
    (hcount : t ≤ (shares.map Share.i).toFinset.card) :
    ∃ S : Finset Nat, S ⊆ (shares.map Share.i).toFinset ∧ S.card = t ∧
      recoverCommit (F := F) ord (shares.map fun s => some (f s)) t = .ok (∑ k ∈ S, lag0 F S k • g k) := by
  have hind : indices (shares.map fun s => some (f s)) = (shares.map Share.i).toFinset := by
    rw [VssP.indices_map_some]
    congr 1
    exact List.map_congr_left hi
  refine ⟨kset (xy F (shares.map fun s => some (f s)) t).1, ?_, ?_, ?_⟩
  · rw [← hind]; exact kset_subset _ _
  · rw [card_kset, hind, if_neg (by omega)]; omega
  · rw [recoverCommit_eq ord _ t (by rw [show idxSet _ = _ from hind]; exact hcount)]
    congr 1
    refine Finset.sum_congr rfl fun k hk => ?_
    rw [yval_of_fun (F := F) _ t g _ k hk]
    intro s hs
    obtain ⟨s', hs', e⟩ := List.mem_map.1 hs
    rw [Option.some.injEq] at e
    subst e
    rw [hf s' hs', hi s' hs']

/-- C124, variant B: any `t` holders of shares of `x` decrypt a ciphertext `(k, c)` like the holder of `x`,
if scalars act linearly on both points. -/
theorem C124_partials (q : Nat) [CharP F q] (ord : MapOrder) (x : F) (cs : List F) (shares : List (Share F)) (t : Nat)
    (hgen : Genuine (x :: cs) (shares.map some)) (hidx : ∀ s ∈ shares, s.i < q)
    (hdeg : (x :: cs).length ≤ t) (hcount : t ≤ (shares.map Share.i).toFinset.card)
    (k c : G) (hk : Lin F k) (hc : Lin F c) (hone : (1 : F) • c = c) :
    recoverCommit (F := F) ord (shares.map fun s => some (partialDecryption k c s)) t = .ok (c - x • k) := by
  have ht : 0 < t := lt_of_lt_of_le (by simp) hdeg
  obtain ⟨S, h1, h2, h3⟩ := recoverCommit_fun ord shares (partialDecryption k c)
    (fun i => c - polyVal (x :: cs) ((i + 1 : Nat) : F) • k) (fun _ _ => rfl)
    (fun s hs => by
      show c - s.v • k = _
      rw [hgen s (List.mem_map.2 ⟨s, hs, rfl⟩)]) t ht hcount
  have hS : ∀ i ∈ S, i < q := fun i hi => by
    obtain ⟨s, hs, rfl⟩ := List.mem_map.1 (List.mem_toFinset.1 (h1 hi))
    exact hidx s hs
  rw [h3]
  congr 1
  simp only [smul_sub, Finset.sum_sub_distrib, ← hk.mul]
  rw [smul_sum_lin hc, smul_sum_lin hk, lag_sum q S hS x cs (by rw [h2]; exact hdeg)]
  have h1' := lag_sum q S hS (1 : F) [] (by rw [h2]; exact ht)
  have e1 : ∀ y : F, polyVal [1] y = 1 := fun y => by simp [polyVal]
  simp only [e1, mul_one] at h1'
  rw [h1', hone]

example : recoverCommit (F := ZMod 11) MapOrder.id
    ([(⟨0, 8⟩ : Share (ZMod 11)), ⟨2, 3⟩].map fun s => some (partialDecryption (4 : ZMod 11) 9 s)) 2 =
      .ok (9 - (5 : ZMod 11) • (4 : ZMod 11)) :=
  C124_partials 11 MapOrder.id 5 [3] _ 2
    (by rintro s (_ | ⟨_, _ | ⟨_, h⟩⟩) <;> first | decide +kernel | cases h)
    (by decide +kernel) (by decide +kernel)
    (by decide +kernel) 4 9 (Lin.of_module _) (Lin.of_module _) (one_smul _ _)

/-- C124, variant C: with the answers of any `t` holders, re-encrypted to the client's key `p • B`, the client gets
what the holder of `x` decrypts. -/
theorem C124_reencrypted (q : Nat) [CharP F q] (ord : MapOrder) (x : F) (cs : List F) (shares : List (Share F)) (t : Nat)
    (hgen : Genuine (x :: cs) (shares.map some)) (hidx : ∀ s ∈ shares, s.i < q)
    (hdeg : (x :: cs).length ≤ t) (hcount : t ≤ (shares.map Share.i).toFinset.card)
    (B u c : G) (p : F) (hB : Lin F B) (hu : Lin F u) :
    ∃ r, recoverCommit (F := F) ord (shares.map fun s => some (reencryption u (p • B) s)) t = .ok r ∧
      openReencryption c r (x • B) p = c - x • u := by
  have ht : 0 < t := lt_of_lt_of_le (by simp) hdeg
  obtain ⟨S, h1, h2, h3⟩ := recoverCommit_fun ord shares (reencryption u (p • B))
    (fun i => polyVal (x :: cs) ((i + 1 : Nat) : F) • u + polyVal (x :: cs) ((i + 1 : Nat) : F) • p • B) (fun _ _ => rfl)
    (fun s hs => by
      show s.v • u + s.v • p • B = _
      rw [hgen s (List.mem_map.2 ⟨s, hs, rfl⟩)]) t ht hcount
  have hS : ∀ i ∈ S, i < q := fun i hi => by
    obtain ⟨s, hs, rfl⟩ := List.mem_map.1 (List.mem_toFinset.1 (h1 hi))
    exact hidx s hs
  refine ⟨_, h3, ?_⟩
  simp only [smul_add, Finset.sum_add_distrib, ← hu.mul, ← (hB.smul p).mul]
  rw [smul_sum_lin (hB.smul p), smul_sum_lin hu, lag_sum q S hS x cs (by rw [h2]; exact hdeg)]
  unfold openReencryption
  rw [hB.comm x p, add_sub_cancel_right]

example := C124_reencrypted 11 MapOrder.id (5 : ZMod 11) [3] [⟨0, 8⟩, ⟨2, 3⟩] 2
    (by rintro s (_ | ⟨_, _ | ⟨_, h⟩⟩) <;> first | decide +kernel | cases h)
    (by decide +kernel) (by decide +kernel) (by decide +kernel) (2 : ZMod 11) 4 9 7 (Lin.of_module _) (Lin.of_module _)

end Kyber.ElGamal

namespace Kyber.Ed

open Kyber Kyber.ModInt Kyber.Poly Kyber.Spec Kyber.Props Kyber.ElGamal

/-! ## Shared keys on edwards25519 -/

theorem one_smul_pt (p : EdPt) : (1 : ZMod L) • p = p := by
  rw [act_def, ZMod.val_one'' (by decide +kernel), one_smul]

/-- The partial decryption is what the byte level operations compute. -/
theorem C124_partial_model (k c : Ext) (K C : EdPt) (hk : k.Rep K) (hc : c.Rep C) (s : Share (ZMod L)) :
    (ptSub c (ptMul (leBytes 32 s.v.val) (some k))).Rep (partialDecryption K C s).v :=
  ptSub_rep hc (mul_model s.v hk)

example := C124_partial_model baseExt baseExt basePt basePt baseExt_rep baseExt_rep ⟨2, 3⟩

/-- C124: what is encrypted on edwards25519 to a shared public key is decrypted by any `t` holders of shares, by
partial decryptions (variant B) and by re-encryption to a client (variant C). -/
theorem C124_shared_key {σ : Type} (S : Rand.Stream σ) (fuel : Nat) (self : Ext) (st : σ) (k : Bytes)
    (hk : k.length = 32) (hk' : leNat k < 2 ^ 255) (ord : MapOrder) (x : ZMod L) (cs : List (ZMod L))
    (shares : List (Share (ZMod L))) (t : Nat)
    (hgen : Genuine (x :: cs) (shares.map some)) (hidx : ∀ s ∈ shares, s.i < L)
    (hdeg : (x :: cs).length ≤ t) (hcount : t ≤ (shares.map Share.i).toFinset.card)
    (pub : Ext) (hpub : pub.Rep (x • basePt)) (message rest : Bytes) (kP c : Ext)
    (h : elGamalEncrypt S fuel self st k pub message = some (.ok (kP, c, rest))) :
    rest = message.drop 29 ∧ ∃ K C M : EdPt, kP.Rep K ∧ c.Rep C ∧
      (∀ u : Ext, u.Rep M → ptData u = some (message.take 29)) ∧
      recoverCommit (F := ZMod L) ord (shares.map fun s => some (partialDecryption K C s)) t = .ok M ∧
      ∀ p : ZMod L, ∃ r,
        recoverCommit (F := ZMod L) ord (shares.map fun s => some (reencryption K (p • basePt) s)) t = .ok r ∧
        openReencryption C r (x • basePt) p = M := by
  unfold elGamalEncrypt at h
  split at h
  · cases h
  · cases h
  · cases h
  · rename_i m hm
    simp only [Option.some.injEq, Res.ok.injEq, Prod.mk.injEq] at h
    obtain ⟨rfl, rfl, rfl⟩ := h
    obtain ⟨hv, hL⟩ := C59_embed_subgroup S message fuel self st m hm
    have hd := C59_embed S message fuel self st m hm
    have hK : L • (leNat k • basePt) = 0 := by rw [smul_comm, L_smul_base, smul_zero]
    have hC : L • (leNat k • x • basePt + hv.pt) = 0 := by
      rw [smul_add, hL, add_zero, smul_comm, act_def, smul_comm L, L_smul_base, smul_zero, smul_zero]
    have e : leNat k • x • basePt + hv.pt - x • leNat k • basePt = hv.pt := by
      rw [act_def, act_def, smul_comm, add_sub_cancel_left]
    refine ⟨?_, _, _, hv.pt, mulBase hk hk', ptAdd_rep (mulPt hk hk' hpub) hv.rep, ?_, ?_, fun p => ?_⟩
    · have : (if embedLen > message.length then message.length else embedLen) = min 29 message.length := by
        rw [show embedLen = 29 from rfl]
        split <;> omega
      rw [this, ← List.drop_eq_drop_min]
    · intro u hu
      rw [← hd]
      unfold ptData
      simp only
      rw [bytes_eq hu, bytes_eq hv.rep]
    · rw [C124_partials L ord x cs shares t hgen hidx hdeg hcount _ _ (lin_of_order hK) (lin_of_order hC)
        (one_smul_pt _), e]
    · obtain ⟨r, h1, h2⟩ := C124_reencrypted L ord x cs shares t hgen hidx hdeg hcount basePt (leNat k • basePt)
        (leNat k • x • basePt + hv.pt) p (lin_of_order L_smul_base) (lin_of_order hK)
      exact ⟨r, h1, h2.trans e⟩

/-- The statement for every ciphertext, also one that nobody encrypted: any `t` holders decrypt like the holder of the
secret. -/
def C124_statement : Prop :=
  ∀ (ord : MapOrder) (x : ZMod L) (cs : List (ZMod L)) (shares : List (Share (ZMod L))) (t : Nat) (bk bc : Bytes)
    (K C : EdPt), Genuine (x :: cs) (shares.map some) → (∀ s ∈ shares, s.i < L) → (x :: cs).length ≤ t →
    t ≤ (shares.map Share.i).toFinset.card → edDec bk = some K → edDec bc = some C →
    recoverCommit (F := ZMod L) ord (shares.map fun s => some (partialDecryption K C s)) t = .ok (C - x • K)

theorem smul_nat_act (n : Nat) (a : ZMod L) (p : EdPt) : n • a • p = a • n • p := by
  rw [act_def, act_def, smul_comm]

theorem nsmul_sum_act (n : Nat) (S : Finset Nat) (f : Nat → ZMod L) (g : Nat → EdPt) :
    n • ∑ k ∈ S, f k • g k = ∑ k ∈ S, f k • n • g k := by
  rw [Finset.smul_sum]
  exact Finset.sum_congr rfl fun k _ => smul_nat_act n _ _

/-- C124, what holds for every pair of points: the decryption is right up to a point of order at most 8, and right if
both points are in the subgroup of prime order. -/
theorem C124_cofactor_partial (ord : MapOrder) (x : ZMod L) (cs : List (ZMod L)) (shares : List (Share (ZMod L)))
    (t : Nat) (K C : EdPt) (hgen : Genuine (x :: cs) (shares.map some)) (hidx : ∀ s ∈ shares, s.i < L)
    (hdeg : (x :: cs).length ≤ t) (hcount : t ≤ (shares.map Share.i).toFinset.card) :
    ∃ M, recoverCommit (F := ZMod L) ord (shares.map fun s => some (partialDecryption K C s)) t = .ok M ∧
      8 • M = 8 • (C - x • K) ∧ (L • K = 0 → L • C = 0 → M = C - x • K) := by
  have ht : 0 < t := lt_of_lt_of_le (by simp) hdeg
  have hf : ∀ (K C : EdPt), ∀ s ∈ shares, (partialDecryption K C s).v =
      C - polyVal (x :: cs) ((s.i + 1 : Nat) : ZMod L) • K := fun K C s hs => by
    show C - s.v • K = _
    rw [hgen s (List.mem_map.2 ⟨s, hs, rfl⟩)]
  obtain ⟨S, h1, h2, h3⟩ := recoverCommit_fun (F := ZMod L) ord shares (partialDecryption K C)
    (fun i => C - polyVal (x :: cs) ((i + 1 : Nat) : ZMod L) • K) (fun _ _ => rfl) (hf K C) t ht hcount
  have hS : ∀ i ∈ S, i < L := fun i hi => by
    obtain ⟨s, hs, rfl⟩ := List.mem_map.1 (List.mem_toFinset.1 (h1 hi))
    exact hidx s hs
  refine ⟨_, h3, ?_, fun hK hC => ?_⟩
  · have l8 : ∀ p : EdPt, Lin (ZMod L) (8 • p) := fun p => lin_of_order ((mem_Sub_iff _).1 (eight_smul_mem p))
    rw [nsmul_sum_act]
    simp only [smul_sub, smul_nat_act 8, Finset.sum_sub_distrib, ← (l8 K).mul]
    rw [smul_sum_lin (l8 C), smul_sum_lin (l8 K), lag_sum L S hS x cs (by rw [h2]; exact hdeg)]
    have h1' := lag_sum L S hS (1 : ZMod L) [] (by rw [h2]; exact ht)
    have e1 : ∀ y : ZMod L, polyVal [1] y = 1 := fun y => by simp [polyVal]
    simp only [e1, mul_one] at h1'
    rw [h1', one_smul_pt]
  · have := C124_partials L ord x cs shares t hgen hidx hdeg hcount K C (lin_of_order hK) (lin_of_order hC) (one_smul_pt _)
    rw [h3, Res.ok.injEq] at this
    exact this

example := C124_cofactor_partial MapOrder.id 5 [3] [⟨0, 8⟩, ⟨2, 14⟩] 2 tPt basePt
    (by rintro s (_ | ⟨_, _ | ⟨_, h⟩⟩) <;> first | decide +kernel | cases h)
    (by decide +kernel) (by decide +kernel) (by decide +kernel)

/-- A partial decryption of a pair with a point of order 8 gives the three low bits of the share away. -/
theorem C124_violated_leak (c : EdPt) (s s' : Share (ZMod L)) (hi : s.i = s'.i) :
    partialDecryption tPt c s = partialDecryption tPt c s' ↔ s.v.val % 8 = s'.v.val % 8 := by
  unfold partialDecryption
  rw [hi]
  simp only [Share.mk.injEq, true_and, sub_right_inj, act_def]
  rw [nsmul_eq_nsmul_iff_modEq, addOrderOf_tPt]
  rfl

theorem t2_val (n : Nat) : n • t2 = if n % 2 = 0 then 0 else t2 := by
  have : n • t2 = (n % 2) • t2 := by
    conv_lhs => rw [← Nat.div_add_mod n 2, add_smul, mul_comm, mul_smul, t2_two, smul_zero, zero_add]
  rw [this]
  rcases Nat.mod_two_eq_zero_or_one n with h | h
  · rw [h, zero_smul, if_pos rfl]
  · rw [h, one_smul, if_neg (by decide)]

theorem t2_act (n : Nat) (hn : n < L) : ((n : Nat) : ZMod L) • t2 = if n % 2 = 0 then 0 else t2 := by
  rw [act_def, val_natCast_L, Nat.mod_eq_of_lt hn, t2_val]

theorem neg_t2 : -t2 = t2 := by
  rw [neg_eq_iff_add_eq_zero, ← two_nsmul]
  exact t2_two

/-- The shares of `1 + X` for the holders `i` and `i + 1`, and what two holders make of the pair `(t2, 0)`. -/
def pairShares (i : Nat) : List (Share (ZMod L)) := [⟨i, ((i + 2 : Nat) : ZMod L)⟩, ⟨i + 1, ((i + 3 : Nat) : ZMod L)⟩]

theorem pairShares_genuine (i : Nat) : Genuine [1, 1] ((pairShares i).map some) := by
  intro s hs
  simp only [pairShares, List.map_cons, List.map_nil, List.mem_cons, Option.some.injEq, List.not_mem_nil, or_false] at hs
  rcases hs with rfl | rfl <;>
  · simp only [polyVal, List.length_cons, List.length_nil, Finset.sum_range_succ, Finset.sum_range_zero]
    push_cast
    simp
    ring

theorem pairShares_card (i : Nat) : ((pairShares i).map Share.i).toFinset.card = 2 := by
  show ([i, i + 1] : List Nat).toFinset.card = 2
  rw [List.toFinset_card_of_nodup (by simp)]
  rfl

theorem pair_lag (i : Nat) : lag0 (ZMod L) {i, i + 1} i = ((i + 2 : Nat) : ZMod L) ∧
    lag0 (ZMod L) {i, i + 1} (i + 1) = -((i + 1 : Nat) : ZMod L) := by
  have e1 : ({i, i + 1} : Finset Nat).erase i = {i + 1} := by
    ext j; simp
  have e2 : ({i, i + 1} : Finset Nat).erase (i + 1) = {i} := by
    ext j; simp; omega
  unfold lag0 xc
  rw [e1, e2, Finset.prod_singleton, Finset.prod_singleton, Finset.prod_singleton, Finset.prod_singleton]
  constructor
  · rw [show (((i + 1 + 1 : Nat)) : ZMod L) - ((i + 1 : Nat) : ZMod L) = 1 by push_cast; ring, div_one]
  · rw [show (((i + 1 : Nat)) : ZMod L) - ((i + 1 + 1 : Nat) : ZMod L) = -1 by push_cast; ring, div_neg, div_one]

theorem pair_recover (ord : MapOrder) (i : Nat) :
    recoverCommit (F := ZMod L) ord ((pairShares i).map fun s => some (partialDecryption t2 0 s)) 2 =
      .ok (((i + 2 : Nat) : ZMod L) • (0 - ((i + 2 : Nat) : ZMod L) • t2) +
        (-((i + 1 : Nat) : ZMod L)) • (0 - ((i + 3 : Nat) : ZMod L) • t2)) := by
  obtain ⟨S, h1, h2, h3⟩ := recoverCommit_fun (F := ZMod L) ord (pairShares i) (partialDecryption t2 0)
    (fun j => 0 - ((j + 2 : Nat) : ZMod L) • t2) (fun _ _ => rfl) (by
      intro s hs
      simp only [pairShares, List.mem_cons, List.not_mem_nil, or_false] at hs
      rcases hs with rfl | rfl <;> rfl) 2 (by decide) (pairShares_card i).ge
  have hS : S = {i, i + 1} := by
    have h1 : S ⊆ ({i, i + 1} : Finset Nat) := fun j hj => by
      have := h1 hj
      simpa [pairShares] using this
    exact Finset.eq_of_subset_of_card_le h1 (by rw [h2]; exact Finset.card_le_two)
  rw [h3, hS, Finset.sum_pair (by omega), (pair_lag i).1, (pair_lag i).2]

/-- C124, violated: three holders, threshold two, a ciphertext whose first point has order two. Two sets of holders get
different points. -/
theorem C124_violated_subsets (ord : MapOrder) :
    recoverCommit (F := ZMod L) ord ((pairShares 0).map fun s => some (partialDecryption t2 0 s)) 2 = .ok 0 ∧
    recoverCommit (F := ZMod L) ord ((pairShares 1).map fun s => some (partialDecryption t2 0 s)) 2 = .ok t2 ∧
    (0 : EdPt) ≠ t2 := by
  have e1 : (-((0 + 1 : Nat) : ZMod L)) = ((L - 1 : Nat) : ZMod L) := by
    rw [neg_eq_iff_add_eq_zero, ← Nat.cast_add, show 0 + 1 + (L - 1) = L by decide +kernel, ZMod.natCast_self]
  have hz : ∀ a : ZMod L, a • (0 : EdPt) = 0 := fun a => smul_zero a
  refine ⟨?_, ?_, t2_ne.symm⟩
  · rw [pair_recover, e1, t2_act _ (by decide +kernel), t2_act _ (by decide +kernel), if_pos (by decide), if_neg (by decide),
      sub_zero, zero_sub, neg_t2, hz, t2_act _ (by decide +kernel), if_pos (by decide +kernel), add_zero]
  · rw [pair_recover, t2_act _ (by decide +kernel), t2_act _ (by decide +kernel), if_neg (by decide), if_pos (by decide),
      zero_sub, neg_t2, sub_zero, hz, t2_act _ (by decide +kernel), if_neg (by decide +kernel), add_zero]

theorem C124_violated : ¬ C124_statement := by
  intro h
  have := h MapOrder.id 1 [1] (pairShares 0) 2 _ _ t2 0 (pairShares_genuine 0) (by
    intro s hs
    simp only [pairShares, List.mem_cons, List.not_mem_nil, or_false] at hs
    rcases hs with rfl | rfl
    · exact (by decide +kernel : (0 : Nat) < L)
    · exact (by decide +kernel : (1 : Nat) < L)) (le_refl _) (pairShares_card 0).ge (edDec_enc _) (edDec_enc _)
  rw [(C124_violated_subsets _).1, Res.ok.injEq, one_smul_pt, zero_sub, neg_t2] at this
  exact t2_ne this.symm

/-- The hypotheses of `C124_shared_key` are met: the holders 1 and 2 of shares of `1 + X`, data `[0]`. -/
example (self : Ext) (ord : MapOrder) : ∃ (kP c : Ext) (rest : Bytes) (K C M : EdPt),
    elGamalEncrypt zeroStream 1 self () (leBytes 32 3) (ptMul (leBytes 32 (1 : ZMod L).val) none) [0] =
      some (.ok (kP, c, rest)) ∧ kP.Rep K ∧ c.Rep C ∧ (∀ u : Ext, u.Rep M → ptData u = some [0]) ∧
    recoverCommit (F := ZMod L) ord ((pairShares 1).map fun s => some (partialDecryption K C s)) 2 = .ok M := by
  obtain ⟨⟨kP, c, rest⟩, h⟩ := (C124_encrypt_returns zeroStream 1 self () (leBytes 32 3)
    (ptMul (leBytes 32 (1 : ZMod L).val) none) [0]).2 (embed_example self)
  obtain ⟨-, K, C, M, h1, h2, h3, h4, -⟩ := C124_shared_key zeroStream 1 self () (leBytes 32 3) (length_leBytes _ _)
    (by decide +kernel) ord 1 [1] (pairShares 1) 2 (pairShares_genuine 1) (by
      intro s hs
      simp only [pairShares, List.mem_cons, List.not_mem_nil, or_false] at hs
      rcases hs with rfl | rfl
      · exact (by decide +kernel : (1 : Nat) < L)
      · exact (by decide +kernel : (2 : Nat) < L)) (le_refl _) (pairShares_card 1).ge _ (mul_base_model 1) _ _ _ _ h
  exact ⟨kP, c, rest, K, C, M, h, h1, h2, h3, h4⟩

/-- Two shares that `C124_violated_leak` tells apart. -/
example (c : EdPt) : ∃ s s' : Share (ZMod L), s.i = s'.i ∧ partialDecryption tPt c s ≠ partialDecryption tPt c s' := by
  obtain ⟨a, ha⟩ : ∃ a : ZMod L, a.val % 8 = 1 := ⟨((1 : Nat) : ZMod L), by rw [val_natCast_L]; decide +kernel⟩
  obtain ⟨b, hb⟩ : ∃ b : ZMod L, b.val % 8 = 2 := ⟨((2 : Nat) : ZMod L), by rw [val_natCast_L]; decide +kernel⟩
  refine ⟨⟨0, a⟩, ⟨0, b⟩, rfl, (C124_violated_leak c ⟨0, a⟩ ⟨0, b⟩ rfl).not.2 ?_⟩
  rw [ha, hb]
  decide

/-! ## After a key generation -/

/-- C124: after a Pedersen key generation among honest participants, what is encrypted to the public key one of them
holds is decrypted by the partial decryptions of any `t` of them, each made with the share it holds. -/
theorem C124_pedersen_dkg (sha hash : Bytes → Bytes) (E : DkgP.DkgEnv (ZMod L) EdPt)
    (hE : E.suite = edSuite sha hash) (hP : E.prims.Lawful)
    (hO : DkgP.PrimsOk E) (N : Net (ZMod L) EdPt) (h : DkgOk E N)
    (hC : ∀ j < N.n, ∀ dl ∈ (N.D j).dealer.deals, E.codec.dec (E.codec.enc dl) = some dl)
    (ht : N.t ≠ 0) (hn : N.n ≤ L) (z : ZMod L)
    (sel : List Nat) (hsel : ∀ i ∈ sel, i < N.n) (hcount : N.t ≤ sel.toFinset.card)
    (msgs : Nat → List HMsg) (hs : ∀ i < N.n, Schedule N.n i (msgs i) ∧ Complete N.n i (msgs i)) (ords : Nat → MapOrder)
    (key : Nat → DkgP.DistKeyShare (ZMod L) EdPt)
    (hkey : ∀ i < N.n, (dRun E (N.D i) ((msgs i).map (HMsg.call E N z i))).distKeyShare E.suite (ords i) = .ok (key i))
    (i : Nat) (hi : i < N.n) (pub : Ext) (P : EdPt) (hpub : pub.Rep P) (hP0 : (key i).commits[0]? = some P)
    {σ : Type} (S : Rand.Stream σ) (fuel : Nat) (self : Ext) (st : σ) (k : Bytes)
    (hk : k.length = 32) (hk' : leNat k < 2 ^ 255) (message rest : Bytes) (kP c : Ext)
    (henc : elGamalEncrypt S fuel self st k pub message = some (.ok (kP, c, rest))) (ord : MapOrder) :
    rest = message.drop 29 ∧ ∃ K C M : EdPt, kP.Rep K ∧ c.Rep C ∧
      (∀ u : Ext, u.Rep M → ptData u = some (message.take 29)) ∧
      recoverCommit (F := ZMod L) ord (sel.map fun j => some (partialDecryption K C (key j).share)) N.t = .ok M := by
  have hS : E.suite.Lawful := hE ▸ edSuite_lawful sha hash
  have hb : E.suite.base = basePt := by rw [hE]; rfl
  have hh := h.honest hE
  have hk2 : ∀ j < N.n, (key j).commits = (sumPoly N N.t).map (fun c => c • basePt) ∧
      (key j).share = ⟨j, polyVal (sumPoly N N.t) ((j + 1 : Nat) : ZMod L)⟩ := by
    intro j hj
    have := ((C33_honest_run E hS hP hO N hh hC z N.t (by rw [if_pos ht]) j hj (msgs j) (hs j hj).1).2 (hs j hj).2 (ords j)).2
    rw [hkey j hj, Res.ok.injEq] at this
    rw [this, hb]
    exact ⟨rfl, rfl⟩
  obtain ⟨t', ht'⟩ : ∃ t', N.t = t' + 1 := ⟨N.t - 1, by omega⟩
  obtain ⟨x, cs, hx, hl⟩ : ∃ x cs, sumPoly N N.t = x :: cs ∧ (x :: cs).length = N.t := by
    have : (sumPoly N N.t).length = N.t := by unfold sumPoly; simp
    cases hq : sumPoly N N.t with
    | nil => rw [hq] at this; exact absurd this.symm ht
    | cons x cs => exact ⟨x, cs, rfl, by rw [← hq, this]⟩
  rw [(hk2 i hi).1, hx] at hP0
  obtain rfl : x • basePt = P := by simpa using hP0
  have hlist : (sel.map fun j => (key j).share) =
      sel.map fun j => (⟨j, polyVal (x :: cs) ((j + 1 : Nat) : ZMod L)⟩ : Share (ZMod L)) :=
    List.map_congr_left fun j hj => by rw [(hk2 j (hsel j hj)).2, hx]
  have hidx : ((sel.map fun j => (key j).share).map Share.i) = sel := by
    rw [hlist, List.map_map]
    exact List.map_id _
  obtain ⟨h1, K, C, M, h2, h3, h4, h5, -⟩ := C124_shared_key S fuel self st k hk hk' ord x cs
    (sel.map fun j => (key j).share) N.t (by
      rw [hlist]
      intro s hs
      obtain ⟨s', hs', he⟩ := List.mem_map.1 hs
      obtain ⟨j, -, rfl⟩ := List.mem_map.1 hs'
      rw [Option.some.injEq] at he
      rw [← he]) (by
      intro s hs
      have : s.i ∈ sel := by rw [← hidx]; exact List.mem_map.2 ⟨s, hs, rfl⟩
      exact lt_of_lt_of_le (hsel _ this) hn) hl.le (by rw [hidx]; exact hcount) pub hpub message rest kP c henc
  refine ⟨h1, K, C, M, h2, h3, h4, ?_⟩
  rw [← h5, List.map_map]
  rfl

/-- What participant `i` of 2 receives. -/
def sched2 (i : Nat) : List HMsg := [.resp i (1 - i), .deal (1 - i), .deals]

theorem sched2_ok (i : Nat) (hi : i < 2) : Schedule 2 i (sched2 i) ∧ Complete 2 i (sched2 i) := by
  refine ⟨⟨?_, ?_⟩, ?_⟩
  · intro m hm
    simp only [sched2, List.mem_cons, List.not_mem_nil, or_false] at hm
    rcases hm with rfl | rfl | rfl <;> simp only [HMsg.Wanted] <;> omega
  · intro m hm
    by_cases hin : m ∈ sched2 i
    · simp only [sched2, List.mem_cons, List.not_mem_nil, or_false] at hin
      rcases hin with rfl | rfl | rfl <;> simp [sched2]
    · rw [List.count_eq_zero_of_not_mem hin]; omega
  · intro m hw hm
    cases m with
    | deals => simp [sched2]
    | deal j =>
      obtain ⟨h1, h2⟩ := hw
      obtain rfl : j = 1 - i := by omega
      simp [sched2]
    | resp j l =>
      obtain ⟨h1, h2, h3, h4⟩ := hw
      obtain rfl : l = 1 - i := by omega
      obtain rfl : j = i := by omega
      simp [sched2]
    | timeout => exact absurd rfl hm

/-- The hypotheses of `C124_pedersen_dkg` are met: two participants with threshold 2 decrypt the data `[0]`, encrypted
to the key they generated. -/
example (sha hash : Bytes → Bytes) (self : Ext) (ord : MapOrder) :
    ∃ (E : DkgP.DkgEnv (ZMod L) EdPt) (N : Net (ZMod L) EdPt) (key : Nat → DkgP.DistKeyShare (ZMod L) EdPt) (pub kP c : Ext)
      (P K C M : EdPt), N.n = 2 ∧ N.t = 2 ∧
      (∀ i < 2, (dRun E (N.D i) ((sched2 i).map (HMsg.call E N 0 i))).distKeyShare E.suite ord = .ok (key i)) ∧
      (key 0).commits[0]? = some P ∧ pub.Rep P ∧
      elGamalEncrypt zeroStream 1 self () (leBytes 32 3) pub [0] = some (.ok (kP, c, [])) ∧ kP.Rep K ∧ c.Rep C ∧
      (∀ u : Ext, u.Rep M → ptData u = some [0]) ∧
      recoverCommit (F := ZMod L) ord ([1, 0].map fun j => some (partialDecryption K C (key j).share)) 2 = .ok M := by
  obtain ⟨E, N, h1, h2, h3, h4, h5, h6, h7, h8, -⟩ := RunsExample.net_example sha hash
  have hs : ∀ i < N.n, Schedule N.n i (sched2 i) ∧ Complete N.n i (sched2 i) := by rw [h7]; exact sched2_ok
  obtain ⟨sec, commits, share, k1, k2, k3, -⟩ := C93_pedersen_dkg sha hash E h1 h2 h4 N h5 (fun _ _ d _ => h3 d)
    (by rw [h6]; decide) h8 0
  choose key hkey hcom hshare using fun (i : Nat) (hi : i < N.n) => k3 i hi (sched2 i) (hs i hi).1 (hs i hi).2 ord
  have hn0 : 0 < N.n := by rw [h7]; decide
  have hP0 : (key 0 hn0).commits[0]? = some (sec • basePt) := by
    rw [hcom, ← List.head?_eq_getElem?, k1]
  obtain ⟨⟨kP, c, rest⟩, henc⟩ := (C124_encrypt_returns zeroStream 1 self () (leBytes 32 3)
    (ptMul (leBytes 32 sec.val) none) [0]).2 (embed_example self)
  obtain ⟨e0, K, C, M, e1, e2, e3, e4⟩ := C124_pedersen_dkg sha hash E h1 h2 h4 N h5 (fun _ _ d _ => h3 d)
    (by rw [h6]; decide) h8 0 [1, 0] (by rw [h7]; decide) (by rw [h6]; decide) sched2 hs (fun _ => ord)
    (fun i => if h : i < N.n then key i h else key 0 hn0) (fun i hi => by rw [dif_pos hi]; exact hkey i hi)
    0 hn0 _ _ k2 (by rw [dif_pos hn0]; exact hP0) zeroStream 1 self () (leBytes 32 3) (length_leBytes _ _)
    (by decide +kernel) [0] rest kP c henc ord
  obtain rfl : rest = [] := e0
  refine ⟨E, N, _, _, kP, c, _, K, C, M, h7, h6, ?_, ?_, k2, henc, e1, e2, e3, by rw [h6] at e4; exact e4⟩
  · intro i hi
    rw [dif_pos (by rw [h7]; exact hi)]
    exact hkey i _
  · rw [dif_pos hn0]; exact hP0

end Kyber.Ed
