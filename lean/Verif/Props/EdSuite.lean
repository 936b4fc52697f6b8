/-
C91, C92: the generic code on edwards25519, and what the cofactor does to it.
-/
import Verif.Lemmas.Ed.Suite
import Verif.Props.EdSig
import Verif.Props.Signatures
import Verif.Lemmas.VssPedersen

namespace Kyber.Ed

open Kyber Kyber.ModInt Kyber.Schnorr Kyber.Poly Kyber.Spec Kyber.Props

/-! ## C70, C91: the suite fulfils the contract of the generic code -/

/-- C70, the exact extent: the two laws that fail hold for all scalars exactly on the points of the prime order subgroup. -/
theorem C70_exact_partial (p : EdPt) :
    ((∀ a b : ZMod L, (a + b) • p = a • p + b • p) ↔ L • p = 0) ∧
    ((∀ a b : ZMod L, (a * b) • p = a • (b • p)) ↔ L • p = 0) := by
  have hL1 : (L - 1) + 1 = L := Nat.succ_pred_eq_of_pos L_pos
  have hval : ((L - 1 : Nat) : ZMod L).val = L - 1 := by
    rw [val_natCast_L, Nat.mod_eq_of_lt (Nat.sub_lt L_pos Nat.one_pos)]
  have h1 : (1 : ZMod L).val = 1 := ZMod.val_one'' (by decide +kernel)
  constructor
  · constructor
    · intro h
      have := h ((L - 1 : Nat) : ZMod L) 1
      have hz : ((L - 1 : Nat) : ZMod L) + 1 = 0 := by
        rw [← Nat.cast_one (R := ZMod L), ← Nat.cast_add, hL1, ZMod.natCast_self]
      rw [hz, act_def, act_def, act_def, ZMod.val_zero, zero_smul, hval, h1, ← add_smul, hL1] at this
      exact this.symm
    · intro h a b
      rw [act_def, act_def, act_def, ZMod.val_add, mod_smul h, add_smul]
  · constructor
    · intro h
      have := h ((L - 1 : Nat) : ZMod L) ((L - 1 : Nat) : ZMod L)
      have hz : ((L - 1 : Nat) : ZMod L) * ((L - 1 : Nat) : ZMod L) = 1 := by
        have e : ((L - 1 : Nat) : ZMod L) = -1 := by
          rw [eq_neg_iff_add_eq_zero, ← Nat.cast_one (R := ZMod L), ← Nat.cast_add, hL1, ZMod.natCast_self]
        rw [e]; ring
      rw [hz, act_def, act_def, act_def, hval, h1, one_smul, smul_smul] at this
      -- (L-1)^2 p = p, so L (L - 2) p = 0; L - 2 is odd
      have h2 : (L * (L - 2)) • p = 0 := by
        have e : (L - 1) * (L - 1) = L * (L - 2) + 1 := by decide +kernel
        rw [e, add_smul, one_smul] at this
        exact add_eq_right.1 this.symm
      have h8 : 8 • (L • p) = 0 := by rw [smul_smul]; exact order_smul p
      have hc : Nat.Coprime 8 (L - 2) := by decide +kernel
      have o1 : addOrderOf (L • p) ∣ 8 := addOrderOf_dvd_of_nsmul_eq_zero h8
      have o2 : addOrderOf (L • p) ∣ (L - 2) := addOrderOf_dvd_of_nsmul_eq_zero (by rw [smul_smul, mul_comm]; exact h2)
      have := Nat.dvd_gcd o1 o2
      rw [hc] at this
      exact AddMonoid.addOrderOf_eq_one_iff.1 (Nat.dvd_one.1 this)
    · intro h a b
      rw [act_def, act_def, act_def, ZMod.val_mul, mod_smul h, mul_smul]

theorem tPt_L : L • tPt ≠ 0 := by
  intro h
  have := addOrderOf_dvd_of_nsmul_eq_zero h
  rw [addOrderOf_tPt] at this
  revert this
  decide +kernel

/-- Both cases of `C70_exact_partial` occur: the base point, and the point of order 8 that
`unmarshal_binary` accepts. -/
example : L • basePt = 0 ∧ L • tPt ≠ 0 := ⟨L_smul_base, tPt_L⟩

/-- C91: edwards25519 keeps the contract of the generic code (`Suite.Lawful`): encodings of fixed length
that decode to what was encoded, one canonical encoding of each scalar, and an action of the scalars
that is linear on the multiples of the base point. Moreover scalars distribute over all points. -/
theorem C91_contract (sha hash : Bytes → Bytes) : (edSuite sha hash).Lawful ∧
    ∀ (a : ZMod L) (p q : EdPt), a • (p + q) = a • p + a • q ∧ (1 : ZMod L) • p = p ∧ a • (0 : EdPt) = 0 ∧
      (0 : ZMod L) • p = 0 := by
  refine ⟨edSuite_lawful sha hash, fun a p q => ⟨smul_add a p q, ?_, smul_zero a, ?_⟩⟩
  · rw [act_def, ZMod.val_one'' (by decide +kernel), one_smul]
  · rw [act_def, ZMod.val_zero, zero_smul]

/-- The operations of the suite are those of the byte level model: multiplication, for every
representation of the point, and decoding. -/
theorem C91_operations (sha hash : Bytes → Bytes) (a : ZMod L) (p : EdPt) :
    (∀ u : Ext, u.Rep p → (ptMul (leBytes 32 a.val) (some u)).Rep (a • p)) ∧
    (ptMul (leBytes 32 a.val) none).Rep (a • (edSuite sha hash).base) ∧
    (∀ u : Ext, u.Rep p → u.bytes = (edSuite sha hash).encG p) ∧
    (∀ b, (edSuite sha hash).decG b = some p ↔ ∃ u, decodePt b = .ok u ∧ u.Rep p) ∧
    (∀ b, (edSuite sha hash).decG b = none ↔ ∀ u, decodePt b ≠ .ok u) :=
  ⟨fun _ hu => mul_model a hu, mul_base_model a, fun _ hu => bytes_eq hu, fun b => edDec_iff b p, edDec_none⟩

/-- Signing with the generic code over this suite is signing with the byte functions. -/
theorem C91_sign (sha hash : Bytes → Bytes) (k x : ZMod L) (msg : Bytes) :
    schnorrSign sha (leBytes 32 k.val) (leBytes 32 x.val) msg = .ok (Schnorr.sign (edSuite sha hash) k x msg) := by
  have hv : ∀ a : ZMod L, leNat (leBytes 32 a.val) = a.val := fun a => by
    rw [leNat_leBytes, Nat.mod_eq_of_lt (lt_of_lt_of_le (ZMod.val_lt a) (by decide +kernel))]
  rw [schnorrSign_eq sha _ _ msg (length_leBytes _ _) (length_leBytes _ _)
    (by rw [hv]; exact (ZMod.val_lt k).trans L_lt') (by rw [hv]; exact (ZMod.val_lt x).trans L_lt'), hv, hv]
  unfold Schnorr.sign Schnorr.hash
  show Res.ok (ptEnc (k.val • basePt) ++ _) = Res.ok (ptEnc (k.val • basePt) ++ leBytes 32 (ZMod.val _))
  congr 3
  rw [ZMod.val_add, ZMod.val_mul]
  show _ = (k.val + x.val * ZMod.val (((leNat (sha (ptEnc (k.val • basePt) ++ ptEnc (x.val • basePt) ++ msg)) : Nat) : ZMod L)) % L) % L
  rw [val_natCast_L]
  conv_rhs => rw [Nat.add_mod, Nat.mod_mod, Nat.mul_mod, Nat.mod_mod, ← Nat.mul_mod, ← Nat.add_mod]

theorem dec_canon_iff (b : Bytes) (p : EdPt) : (edDec b = some p ∧ ptIsCanonical b = true ∧ 8 • p ≠ 0) ↔
    (ptEnc p = b ∧ Accepted p) := by
  constructor
  · rintro ⟨h1, h2, h3⟩
    obtain ⟨u, hu, hr⟩ := (edDec_iff b p).1 h1
    have hs : hasSmallOrder u = false := by
      rw [← Bool.not_eq_true, C54_small_order _ hr.valid, hr.pt_eq]
      exact h3
    obtain ⟨q, q1, q2, q3⟩ := decode_ok hu h2 hs
    have : q = p := q1.pt_eq.symm.trans hr.pt_eq
    subst this
    exact ⟨q2, q3⟩
  · rintro ⟨rfl, h⟩
    exact ⟨edDec_enc p, canon_of h.1, h.2⟩

theorem small_iff (sha hash : Bytes → Bytes) (p : EdPt) : (edSuite sha hash).small p = false ↔ 8 • p ≠ 0 := by
  show decide (8 • p = 0) = false ↔ _
  exact decide_eq_false_iff_not

/-- And so is verifying. -/
theorem C91_verify (sha hash : Bytes → Bytes) (pubb msg sig : Bytes) :
    Schnorr.verifyWithChecks (edSuite sha hash) pubb msg sig = .ok () ↔ schnorrVerify sha pubb msg sig = .ok () := by
  rw [C12_accepts_iff, schnorrVerify_iff]
  unfold SigOk SigEq
  constructor
  · rintro ⟨h1, R, A, s, h2, h3, h4, h5, h6, h7, h8, h9, h10⟩
    obtain ⟨e1, e2⟩ := (dec_canon_iff _ _).1 ⟨h2, h3, (small_iff sha hash _).1 h4⟩
    obtain ⟨e3, e4⟩ := (dec_canon_iff _ _).1 ⟨h7, h8, (small_iff sha hash _).1 h9⟩
    have h5 : (if (sig.drop 32).length = 32 then some ((leNat (sig.drop 32) : Nat) : ZMod L) else none) = some s := h5
    obtain ⟨c1, c2⟩ := (scIsCanonical_iff _).1 h6
    have c1' : (sig.drop 32).length = 32 := c1
    rw [if_pos c1', Option.some.injEq] at h5
    refine ⟨h1, R, A, e1, e3, e2, e4, c2, ?_⟩
    have h10 : s • basePt = R + ((leNat (sha (ptEnc R ++ ptEnc A ++ msg)) : Nat) : ZMod L) • A := h10
    rw [← h5, act_base, act_def, val_natCast_L, e1, e3] at h10
    exact h10
  · rintro ⟨h1, R, A, e1, e3, e2, e4, c2, h10⟩
    have c1 : (sig.drop 32).length = 32 := by rw [List.length_drop]; omega
    obtain ⟨h2, h3, h4⟩ := (dec_canon_iff _ _).2 ⟨e1, e2⟩
    obtain ⟨h7, h8, h9⟩ := (dec_canon_iff _ _).2 ⟨e3, e4⟩
    refine ⟨h1, R, A, ((leNat (sig.drop 32) : Nat) : ZMod L), h2, h3, (small_iff sha hash _).2 h4, if_pos c1,
      (scIsCanonical_iff _).2 ⟨c1, c2⟩, h7, h8, (small_iff sha hash _).2 h9, ?_⟩
    show ((leNat (sig.drop 32) : Nat) : ZMod L) • basePt = R +
      ((leNat (sha (ptEnc R ++ ptEnc A ++ msg)) : Nat) : ZMod L) • A
    rw [act_base, act_def, val_natCast_L, e1, e3]
    exact h10

/-- The same for EdDSA. -/
theorem C91_eddsa_verify (sha hash : Bytes → Bytes) (pubb msg sig : Bytes) :
    Eddsa.verifyWithChecks (edSuite sha hash) pubb msg sig = .ok () ↔ eddsaVerify sha pubb msg sig = .ok () := by
  rw [C14_accepts_iff, eddsaVerify_iff]
  unfold SigOk SigEq
  constructor
  · rintro ⟨h1, R, A, s, h2, h3, h4, h5, h6, h7, h8, h9, h10⟩
    obtain ⟨e1, e2⟩ := (dec_canon_iff _ _).1 ⟨h2, h3, (small_iff sha hash _).1 h4⟩
    obtain ⟨e3, e4⟩ := (dec_canon_iff _ _).1 ⟨h7, h8, (small_iff sha hash _).1 h9⟩
    have h5 : (if (sig.drop 32).length = 32 then some ((leNat (sig.drop 32) : Nat) : ZMod L) else none) = some s := h5
    obtain ⟨c1, c2⟩ := (scIsCanonical_iff _).1 h6
    have c1' : (sig.drop 32).length = 32 := c1
    rw [if_pos c1', Option.some.injEq] at h5
    refine ⟨h1, R, A, e1, e3, e2, e4, c2, ?_⟩
    have h10 : s • basePt = R + ((leNat (sha (sig.take 32 ++ pubb ++ msg)) : Nat) : ZMod L) • A := h10
    rw [← h5, act_base, act_def, val_natCast_L] at h10
    exact h10
  · rintro ⟨h1, R, A, e1, e3, e2, e4, c2, h10⟩
    have c1 : (sig.drop 32).length = 32 := by rw [List.length_drop]; omega
    obtain ⟨h2, h3, h4⟩ := (dec_canon_iff _ _).2 ⟨e1, e2⟩
    obtain ⟨h7, h8, h9⟩ := (dec_canon_iff _ _).2 ⟨e3, e4⟩
    refine ⟨h1, R, A, ((leNat (sig.drop 32) : Nat) : ZMod L), h2, h3, (small_iff sha hash _).2 h4, if_pos c1,
      (scIsCanonical_iff _).2 ⟨c1, c2⟩, h7, h8, (small_iff sha hash _).2 h9, ?_⟩
    show ((leNat (sig.drop 32) : Nat) : ZMod L) • basePt = R +
      ((leNat (sha (sig.take 32 ++ pubb ++ msg)) : Nat) : ZMod L) • A
    rw [act_base, act_def, val_natCast_L]
    exact h10

/-- `C91_sign` and `C91_verify` together, with key and nonce 1: the signature made by the generic code is
accepted by the byte functions. -/
example (sha hash : Bytes → Bytes) (msg : Bytes) :
    schnorrVerify sha (ptMarshal (ptMul (leBytes 32 1) none)) msg (Schnorr.sign (edSuite sha hash) 1 1 msg) = .ok () := by
  obtain ⟨sig, h1, h2⟩ := sample_accepted sha msg
  have := C91_sign sha hash 1 1 msg
  rw [ZMod.val_one'' (by decide +kernel), h1, Res.ok.injEq] at this
  rw [← this]
  exact h2

/-! ## C92: shares that pass the check against commitments off the subgroup -/

/-- Shares accepted by `PubPoly::check`, as many as there are commitments, give the discrete logarithm of
the first commitment. -/
def C92_statement : Prop :=
  ∀ (ord : MapOrder) (commits : List EdPt) (shares : List (Share (ZMod L))), commits ≠ [] →
    (∀ s ∈ shares, (⟨none, commits⟩ : PubPoly EdPt).check basePt s = .ok true) →
    (∀ s ∈ shares, s.i < L) → commits.length ≤ (shares.map (fun s => s.i)).toFinset.card →
    ∃ s, recoverSecret ord (shares.map some) commits.length = .ok s ∧ s • basePt = commits.getD 0 0

/-- Multiplication by the cofactor, into the subgroup. -/
def clear (p : EdPt) : Sub := ⟨8 • p, eight_smul_mem p⟩

theorem clear_add (p q : EdPt) : clear (p + q) = clear p + clear q :=
  Subtype.ext (smul_add _ _ _)

theorem clear_act (a : ZMod L) (p : EdPt) : clear (a • p) = a • clear p := by
  apply Subtype.ext
  rw [act_sub]
  exact smul_comm 8 a.val p

theorem clear_zero : clear 0 = 0 := Subtype.ext (smul_zero _)

theorem clear_eval (commits : List EdPt) (x : ZMod L) :
    clear (commits.foldr (fun c v => x • v + c) 0) = pointVal (commits.map clear) x := by
  rw [pointVal_eq_foldr]
  induction commits with
  | nil => exact clear_zero
  | cons c l ih => rw [List.foldr_cons, List.map_cons, List.foldr_cons, clear_add, clear_act, ih]

/-- What the shares give is the discrete logarithm up to points of small order. -/
theorem C92_cofactor_partial (ord : MapOrder) (commits : List EdPt) (shares : List (Share (ZMod L)))
    (hc : commits ≠ []) (hs : ∀ s ∈ shares, (⟨none, commits⟩ : PubPoly EdPt).check basePt s = .ok true)
    (hi : ∀ s ∈ shares, s.i < L) (hn : commits.length ≤ (shares.map (fun s => s.i)).toFinset.card) :
    ∃ s, recoverSecret ord (shares.map some) commits.length = .ok s ∧
      8 • (s • basePt) = 8 • commits.getD 0 0 ∧
      ((∀ c ∈ commits, L • c = 0) → s • basePt = commits.getD 0 0) := by
  have hind : indices (shares.map some) = (shares.map (fun s => s.i)).toFinset := by
    rw [VssP.indices_map_some]
  obtain ⟨s, h1, h2⟩ := VssP.recoverSecret_committed (F := ZMod L) L ord (shares.map some) commits.length
    (commits.map clear) (clear basePt) (by
      intro s h
      obtain ⟨s', h', he⟩ := List.mem_map.1 h
      obtain rfl : s' = s := Option.some.inj he
      have := hs s' h'
      unfold PubPoly.check PubPoly.eval at this
      rw [if_neg (by simpa using hc), Res.bind_ok, Res.ok.injEq, decide_eq_true_eq] at this
      rw [← clear_act, ← clear_eval]
      exact congrArg clear this.symm)
    (by
      intro i h
      rw [hind, List.mem_toFinset] at h
      obtain ⟨s', h', rfl⟩ := List.mem_map.1 h
      exact hi s' h')
    (by rw [List.length_map]) (by rw [hind]; exact hn)
  have e8 : 8 • (s • basePt) = 8 • commits.getD 0 0 := by
    rw [← clear_act] at h2
    obtain ⟨c, l, rfl⟩ : ∃ c l, commits = c :: l := by
      cases commits with
      | nil => exact absurd rfl hc
      | cons c l => exact ⟨c, l, rfl⟩
    exact congrArg Subtype.val h2
  refine ⟨s, h1, e8, fun hL => ?_⟩
  have hm : L • (s • basePt - commits.getD 0 0) = 0 := by
    have h0 : L • commits.getD 0 0 = 0 := by
      cases commits with
      | nil => exact absurd rfl hc
      | cons c l => exact hL c (List.mem_cons_self ..)
    rw [smul_sub, h0, act_def, smul_comm, L_smul_base, smul_zero, sub_zero]
  have h8 : 8 • (s • basePt - commits.getD 0 0) = 0 := by rw [smul_sub, e8, sub_self]
  have o1 := addOrderOf_dvd_of_nsmul_eq_zero hm
  have o2 := addOrderOf_dvd_of_nsmul_eq_zero h8
  have := Nat.dvd_gcd o1 o2
  rw [show Nat.gcd L 8 = 1 by decide +kernel] at this
  exact sub_eq_zero.1 (AddMonoid.addOrderOf_eq_one_iff.1 (Nat.dvd_one.1 this))

/-- The point of order two. -/
def t2 : EdPt := 4 • tPt

theorem t2_ne : t2 ≠ 0 := by
  intro h
  have := addOrderOf_dvd_of_nsmul_eq_zero h
  rw [addOrderOf_tPt] at this
  revert this
  decide

theorem t2_two : 2 • t2 = 0 := by
  unfold t2
  rw [smul_smul]
  have := addOrderOf_nsmul_eq_zero tPt
  rwa [addOrderOf_tPt] at this

/-- A dealer who adds the point of order two to both commitments of a polynomial of degree one: every
verifier with an even index accepts its share. -/
theorem torsion_accepted (a b : ZMod L) (i : Nat) (hi : i + 1 < L) (he : i % 2 = 0) :
    (⟨none, [a • basePt + t2, b • basePt + t2]⟩ : PubPoly EdPt).check basePt
      ⟨i, a + ((i + 1 : Nat) : ZMod L) * b⟩ = .ok true := by
  unfold PubPoly.check PubPoly.eval
  rw [if_neg (by simp), Res.bind_ok, Res.ok.injEq, decide_eq_true_eq]
  simp only [List.foldr_cons, List.foldr_nil, xc, Option.getD_none]
  have hv : ((i + 1 : Nat) : ZMod L).val = i + 1 := by rw [val_natCast_L, Nat.mod_eq_of_lt hi]
  have e0 : (i + 1) • t2 = t2 := by
    obtain ⟨m, hm⟩ : ∃ m, i = m * 2 := ⟨i / 2, by omega⟩
    rw [add_smul, hm, mul_smul, t2_two, smul_zero, zero_add, one_smul]
  have e1 : ((i + 1 : Nat) : ZMod L) • (b • basePt + t2) = (((i + 1 : Nat) : ZMod L) * b) • basePt + t2 := by
    rw [((C70_exact_partial basePt).2.2 L_smul_base)]
    generalize b • basePt = q
    rw [act_def, act_def, hv, smul_add, e0]
  have z : ((i + 1 : Nat) : ZMod L) • (0 : EdPt) = 0 := by rw [act_def, smul_zero]
  rw [z, zero_add, e1, ((C70_exact_partial basePt).1.2 L_smul_base)]
  have : t2 + t2 = 0 := by rw [← two_nsmul]; exact t2_two
  rw [show (((i + 1 : Nat) : ZMod L) * b) • basePt + t2 + (a • basePt + t2) =
    a • basePt + (((i + 1 : Nat) : ZMod L) * b) • basePt + (t2 + t2) by abel, this, add_zero]

/-- Three participants, threshold two, the dealer holds the index in the middle: the two others accept,
and the secret they can recover does not belong to the committed key. -/
theorem C92_violated_middle (ord : MapOrder) (a b : ZMod L) :
    let commits := [a • basePt + t2, b • basePt + t2]
    let shares : List (Share (ZMod L)) := [⟨0, a + ((0 + 1 : Nat) : ZMod L) * b⟩, ⟨2, a + ((2 + 1 : Nat) : ZMod L) * b⟩]
    (∀ s ∈ shares, (⟨none, commits⟩ : PubPoly EdPt).check basePt s = .ok true) ∧
    recoverSecret ord (shares.map some) 2 = .ok a ∧ a • basePt ≠ commits.getD 0 0 := by
  intro commits shares
  have hc : ∀ s ∈ shares, (⟨none, commits⟩ : PubPoly EdPt).check basePt s = .ok true := by
    intro s hs
    simp only [shares, List.mem_cons, List.not_mem_nil, or_false] at hs
    rcases hs with rfl | rfl
    · exact torsion_accepted a b 0 (by decide +kernel) rfl
    · exact torsion_accepted a b 2 (by decide +kernel) rfl
  have hi : ∀ s ∈ shares, s.i < L := by
    intro s hs
    simp only [shares, List.mem_cons, List.not_mem_nil, or_false] at hs
    rcases hs with rfl | rfl
    · exact (by decide +kernel : (0 : Nat) < L)
    · exact (by decide +kernel : (2 : Nat) < L)
  refine ⟨hc, ?_, ?_⟩
  · obtain ⟨s, h1, h2, -⟩ := C92_cofactor_partial ord commits shares (by simp [commits]) hc hi (by simp [commits, shares])
    have h1 : recoverSecret ord (shares.map some) 2 = .ok s := h1
    rw [h1]
    have h3 : 8 • (s • basePt) = 8 • (a • basePt) := by
      rw [h2]
      show 8 • (a • basePt + t2) = _
      rw [smul_add, show (8 : Nat) = 4 * 2 by rfl, mul_smul 4 2 t2, t2_two, smul_zero, add_zero]
    have h4 : (s - a) • basePt = 0 := by
      have e : 8 • ((s - a) • basePt) = 0 := by
        have : s • basePt = (s - a) • basePt + a • basePt := by
          rw [← ((C70_exact_partial basePt).1.2 L_smul_base), sub_add_cancel]
        rw [this, smul_add] at h3
        exact add_eq_right.1 h3
      rw [act_def, small_base] at e
      have := Nat.eq_zero_of_dvd_of_lt e (ZMod.val_lt _)
      rw [act_def, this, zero_smul]
    rw [act_def] at h4
    have h5 := small_base (s - a).val |>.1 (by rw [h4, smul_zero])
    have h6 := Nat.eq_zero_of_dvd_of_lt h5 (ZMod.val_lt _)
    rw [ZMod.val_eq_zero, sub_eq_zero] at h6
    rw [h6]
  · show a • basePt ≠ a • basePt + t2
    intro h
    exact t2_ne (left_eq_add.1 h)

theorem C92_violated : ¬ C92_statement := by
  intro h
  obtain ⟨h1, h2, h3⟩ := C92_violated_middle MapOrder.id 1 1
  obtain ⟨s, h4, h5⟩ := h MapOrder.id _ _ (by simp) h1 (by
    intro s hs
    simp only [List.mem_cons, List.not_mem_nil, or_false] at hs
    rcases hs with rfl | rfl
    · exact (by decide +kernel : (0 : Nat) < L)
    · exact (by decide +kernel : (2 : Nat) < L)) (by simp)
  have h4 : recoverSecret MapOrder.id _ 2 = .ok s := h4
  rw [h2, Res.ok.injEq] at h4
  subst h4
  exact h3 h5

end Kyber.Ed
