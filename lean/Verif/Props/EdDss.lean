/-
C94: threshold signatures on edwards25519 when the distributed keys have components of small order.
-/
import Verif.Props.EdRuns

namespace Kyber.Ed

open Kyber Kyber.ModInt Kyber.Schnorr Kyber.Poly Kyber.Spec Kyber.Props

/-- The challenge of the threshold signature. -/
def chal (sha : Bytes → Bytes) (R A : EdPt) (msg : Bytes) : ZMod L :=
  ((leNat (sha (ptEnc R ++ ptEnc A ++ msg)) : Nat) : ZMod L)

/-- A session whose own shares fit the two public polynomials, and enough stored partial signatures (of which
each was checked against the public polynomials), gives a signature that verifies, unless the library refuses
the key or the nonce point. -/
def C94_statement : Prop :=
  ∀ (sha hash : Bytes → Bytes) (ord : MapOrder) (x : ZMod L) (participants : List EdPt) (R A : EdPt)
    (Rs As : List EdPt) (t : Nat) (longShare randomShare : Share (ZMod L)) (msg : Bytes) (d : Dss.DSS (ZMod L) EdPt)
    (calls : List (DssCall (ZMod L))),
    participants.length ≤ L → (R :: Rs).length = t → (A :: As).length = t →
    Dss.newDss (edSuite sha hash) x participants ⟨longShare, A :: As⟩ ⟨randomShare, R :: Rs⟩ msg t = .ok d →
    longShare.v • basePt = pointVal (A :: As) ((d.index + 1 : Nat) : ZMod L) →
    randomShare.v • basePt = pointVal (R :: Rs) ((d.index + 1 : Nat) : ZMod L) →
    t ≤ (indices (dssRun (edSuite sha hash) d calls).partials).card → Accepted R → Accepted A →
    ∃ sig, Dss.signature (edSuite sha hash) ord (dssRun (edSuite sha hash) d calls) = .ok sig ∧
      eddsaVerify sha (ptEnc A) msg sig = .ok ()

theorem clear_pointVal (commits : List EdPt) (x : ZMod L) :
    clear (pointVal commits x) = pointVal (commits.map clear) x := by
  rw [pointVal_eq_foldr, clear_eval]

theorem length_sig (R : EdPt) (n : Nat) : (ptEnc R ++ leBytes 32 n).length = 64 := by
  rw [List.length_append, length_ptEnc, length_leBytes]

/-- When the signature of the curve group passes `eddsa::verify`. -/
theorem sig_iff (sha : Bytes → Bytes) (R A : EdPt) (γ : ZMod L) (msg : Bytes) :
    eddsaVerify sha (ptEnc A) msg (ptEnc R ++ leBytes 32 γ.val) = .ok () ↔
      Accepted R ∧ Accepted A ∧ γ • basePt = R + chal sha R A msg • A := by
  have hγ : γ.val % L = γ.val := Nat.mod_eq_of_lt (ZMod.val_lt _)
  have e : leNat (leBytes 32 γ.val) = γ.val := by
    rw [← hγ, leNat_leBytes_mod]
  have hc : (chal sha R A msg).val = leNat (sha (ptEnc R ++ ptEnc A ++ msg)) % L := val_natCast_L _
  rw [eddsaVerify_iff]
  unfold SigOk SigEq
  rw [take_enc, drop_enc, e]
  constructor
  · rintro ⟨-, R', A', h1, h2, h3, h4, -, h5⟩
    rw [ptEnc_inj h1] at h3 h5
    rw [ptEnc_inj h2] at h4 h5
    refine ⟨h3, h4, ?_⟩
    rw [act_def, act_def, hc]
    exact h5
  · rintro ⟨h3, h4, h5⟩
    rw [act_def, act_def, hc] at h5
    exact ⟨length_sig R _, R, A, rfl, rfl, h3, h4, ZMod.val_lt _, h5⟩

theorem eight_mod (n : Nat) (A : EdPt) : 8 • ((n % L) • A) = 8 • (n • A) := by
  have h8 : L • (8 • A) = 0 := (mem_Sub_iff _).1 (eight_smul_mem A)
  rw [smul_comm 8, smul_comm 8]
  exact mod_smul h8 n

theorem pointVal_smul {F G : Type} [Field F] [AddCommGroup G] [Module F G] (h : F) (Cs : List G) (x : F) :
    pointVal (Cs.map (fun c => h • c)) x = h • pointVal Cs x := by
  induction Cs with
  | nil => rw [List.map_nil, pointVal, smul_zero]
  | cons c Cs ih => rw [List.map_cons, pointVal, pointVal, ih, smul_add, smul_comm x h]

theorem eq_of_eight {p q : EdPt} (hp : L • p = 0) (hq : L • q = 0) (h : 8 • p = 8 • q) : p = q := by
  have o1 := addOrderOf_dvd_of_nsmul_eq_zero (show L • (p - q) = 0 by rw [smul_sub, hp, hq, sub_zero])
  have o2 := addOrderOf_dvd_of_nsmul_eq_zero (show 8 • (p - q) = 0 by rw [smul_sub, h, sub_self])
  have := Nat.dvd_gcd o1 o2
  rw [show Nat.gcd L 8 = 1 by decide +kernel] at this
  exact sub_eq_zero.1 (AddMonoid.addOrderOf_eq_one_iff.1 (Nat.dvd_one.1 this))

theorem sig_cofactor (sha : Bytes → Bytes) (R A : EdPt) (γ : ZMod L) (msg : Bytes)
    (h : 8 • (γ • basePt) = 8 • R + 8 • (chal sha R A msg • A)) :
    Rfc8032.Verifies sha 8 (ptEnc A) msg (ptEnc R ++ leBytes 32 γ.val) := by
  have hγ : γ.val % L = γ.val := Nat.mod_eq_of_lt (ZMod.val_lt _)
  have e : leNat (leBytes 32 γ.val) = γ.val := by
    rw [← hγ, leNat_leBytes_mod]
  have hc : (chal sha R A msg).val = leNat (sha (ptEnc R ++ ptEnc A ++ msg)) % L := val_natCast_L _
  unfold Rfc8032.Verifies
  rw [take_enc, drop_enc, e]
  refine ⟨length_sig R _, R, A, decodes_enc R, decodes_enc A, ZMod.val_lt _, ?_⟩
  rw [← act_def, h, act_def, hc, eight_mod]

/-- C94, what holds whatever the commitments and the messages received: a signature comes out, and it satisfies
the verification equation multiplied by the cofactor, which RFC 8032 allows verifiers to check. If all commitments lie
in the subgroup, the library accepts it. -/
theorem C94_cofactor_partial (sha hash : Bytes → Bytes) (ord : MapOrder) (x : ZMod L) (participants : List EdPt)
    (R A : EdPt) (Rs As : List EdPt) (t : Nat) (longShare randomShare : Share (ZMod L)) (msg : Bytes)
    (d : Dss.DSS (ZMod L) EdPt) (calls : List (DssCall (ZMod L)))
    (hn : participants.length ≤ L) (hRt : (R :: Rs).length = t) (hAt : (A :: As).length = t)
    (hnew : Dss.newDss (edSuite sha hash) x participants ⟨longShare, A :: As⟩ ⟨randomShare, R :: Rs⟩ msg t = .ok d)
    (hlong : longShare.v • basePt = pointVal (A :: As) ((d.index + 1 : Nat) : ZMod L))
    (hrandom : randomShare.v • basePt = pointVal (R :: Rs) ((d.index + 1 : Nat) : ZMod L))
    (hcount : t ≤ (indices (dssRun (edSuite sha hash) d calls).partials).card) :
    ∃ sig, Dss.signature (edSuite sha hash) ord (dssRun (edSuite sha hash) d calls) = .ok sig ∧
      Rfc8032.Verifies sha 8 (ptEnc A) msg sig ∧
      ((∀ c ∈ R :: Rs, L • c = 0) → (∀ c ∈ A :: As, L • c = 0) →
        (eddsaVerify sha (ptEnc A) msg sig = .ok () ↔ Accepted R ∧ Accepted A)) := by
  have hcorr := C18_stored_correct (edSuite sha hash) x participants _ _ msg t d (edSuite_lawful sha hash).base_lin hnew
    R A rfl rfl hlong hrandom calls
  obtain ⟨p1, p2, p3, p4, p5, -, -⟩ := C18_parameters_fixed (edSuite sha hash) d calls
  have hd : d.t = t ∧ d.random = ⟨randomShare, R :: Rs⟩ := by
    unfold Dss.newDss at hnew
    simp only at hnew
    split at hnew
    · cases hnew
    · simp only [Res.ok.injEq] at hnew
      subst hnew
      exact ⟨rfl, rfl⟩
  have hch : dssChallenge (edSuite sha hash) R A msg = chal sha R A msg := rfl
  set ps := (dssRun (edSuite sha hash) d calls).partials with hps
  set h := chal sha R A msg with hh
  have hidx : ∀ i ∈ indices ps, i < L := by
    intro i hi
    obtain ⟨s, hs, rfl⟩ := mem_indices.1 hi
    exact lt_of_lt_of_le (hcorr s hs).1 hn
  obtain ⟨γ, h1, h2⟩ := VssP.recoverSecret_committed (F := ZMod L) L ord ps t
    (List.zipWith (· + ·) ((R :: Rs).map clear) ((A :: As).map (fun c => h • clear c))) (clear basePt) (by
      intro s hs
      have e := (hcorr s hs).2
      rw [hch] at e
      have e2 := congrArg clear e
      rw [clear_add, clear_act, clear_act, clear_pointVal, clear_pointVal] at e2
      rw [pointVal_zipWith_add (by simp only [List.length_map]; rw [hRt, hAt]),
        show (A :: As).map (fun c => h • clear c) = ((A :: As).map clear).map (fun c => h • c) by rw [List.map_map]; rfl]
      refine e2.trans ?_
      congr 1
      exact (pointVal_smul _ _ _).symm) hidx (by
      rw [List.length_zipWith, List.length_map, List.length_map, hRt, hAt, min_self]) hcount
  have e8 : 8 • (γ • basePt) = 8 • R + 8 • (h • A) := by
    have : clear (γ • basePt) = clear (R + h • A) := by
      rw [clear_act, clear_add, clear_act]
      exact h2
    have := congrArg Subtype.val this
    simpa only [clear, smul_add] using this
  have hsig : Dss.signature (edSuite sha hash) ord (dssRun (edSuite sha hash) d calls) =
      .ok (ptEnc R ++ leBytes 32 γ.val) := by
    unfold Dss.signature
    have hen : Dss.enoughPartialSig (dssRun (edSuite sha hash) d calls) = true := by
      unfold Dss.enoughPartialSig
      rw [p2, hd.1, decide_eq_true_iff]
      refine le_trans hcount ?_
      unfold indices
      refine le_trans (List.toFinset_card_le _) ?_
      rw [List.length_map]
      exact List.length_filterMap_le _ _
    rw [if_neg (by simp [hen]), p2, hd.1, h1, p4, hd.2]
    rfl
  refine ⟨_, hsig, sig_cofactor sha R A γ msg e8, ?_⟩
  · intro hR hA
    rw [sig_iff]
    constructor
    · exact fun ⟨a, b, _⟩ => ⟨a, b⟩
    · rintro ⟨a, b⟩
      refine ⟨a, b, eq_of_eight ?_ ?_ ?_⟩
      · rw [act_def, smul_comm, L_smul_base, smul_zero]
      · rw [smul_add, hR R (List.mem_cons_self ..), act_def, smul_comm, hA A (List.mem_cons_self ..), smul_zero, add_zero]
      · rw [e8, smul_add]

/-! ## The counterexample -/

theorem t2_x : t2.x = 0 := by
  have h : t2 = -t2 := by
    rw [eq_neg_iff_add_eq_zero, ← two_nsmul]; exact t2_two
  have := congrArg EdPt.x h
  rw [neg_x] at this
  have h2 : (2 : Fp) * t2.x = 0 := by linear_combination this
  rcases mul_eq_zero.1 h2 with h3 | h3
  · exact absurd h3 (by decide +kernel)
  · exact h3

theorem t2_y : t2.y = -1 := by
  have h := t2.on
  unfold On at h
  rw [t2_x] at h
  have h2 : (t2.y - 1) * (t2.y + 1) = 0 := by linear_combination h
  rcases mul_eq_zero.1 h2 with h3 | h3
  · exfalso
    apply t2_ne
    ext
    · rw [t2_x, zero_x]
    · rw [zero_y]; linear_combination h3
  · linear_combination h3

/-- Adding the point of order two is `(x, y) ↦ (-x, -y)`. -/
theorem add_t2_y (p : EdPt) : (p + t2).y = -p.y := by
  rw [add_y, t2_x, t2_y]
  simp

theorem smul_t2 (n : Nat) : n • t2 = if n % 2 = 0 then 0 else t2 := by
  conv_lhs => rw [← Nat.div_add_mod n 2, add_smul, mul_comm, mul_smul, t2_two, smul_zero, zero_add]
  rcases Nat.mod_two_eq_zero_or_one n with h | h <;> rw [h]
  · rw [zero_smul, if_pos rfl]
  · rw [one_smul, if_neg (by decide)]

namespace DssTorsion

/-- The session of participant `i` of three: a long-term key `a B + T` where `T` is the point of order two,
as left by a dealer who added `T` to both commitments of a polynomial `a + b X` (see `C92_violated_middle`),
and a random key `r B` of the polynomial `r + s X`. -/
noncomputable def sess (sha hash : Bytes → Bytes) (x : Nat → ZMod L) (a b r s : ZMod L) (msg : Bytes) (i : Nat) :
    Dss.DSS (ZMod L) EdPt :=
  let long : Dss.DistKeyShare (ZMod L) EdPt :=
    ⟨⟨i, a + ((i + 1 : Nat) : ZMod L) * b⟩, [a • basePt + t2, b • basePt + t2]⟩
  let random : Dss.DistKeyShare (ZMod L) EdPt :=
    ⟨⟨i, r + ((i + 1 : Nat) : ZMod L) * s⟩, [r • basePt, s • basePt]⟩
  { secret := x i, pub := x i • basePt, index := i, participants := [x 0 • basePt, x 1 • basePt, x 2 • basePt], t := 2
    long := long, random := random, msg := msg, partials := [], partialsIdx := [], signed := false
    sessionId := Dss.sessionId (edSuite sha hash) long random }

theorem long_val (a b : ZMod L) (i : Nat) (hi : i + 1 < L) (he : i % 2 = 0) :
    pointVal [a • basePt + t2, b • basePt + t2] ((i + 1 : Nat) : ZMod L) =
      (a + ((i + 1 : Nat) : ZMod L) * b) • basePt := by
  have := torsion_accepted a b i hi he
  unfold PubPoly.check PubPoly.eval at this
  rw [if_neg (by simp), Res.bind_ok, Res.ok.injEq, decide_eq_true_eq] at this
  rw [pointVal_eq_foldr]
  exact this

theorem random_val (r s y : ZMod L) :
    pointVal [r • basePt, s • basePt] y = (r + y * s) • basePt := by
  have := pointVal_map_smul [r, s] (lin_of_order L_smul_base) y
  rw [show [r, s].map (fun c => c • basePt) = [r • basePt, s • basePt] from rfl] at this
  rw [this]
  simp only [polyVal, List.length_cons, List.length_nil, Finset.sum_range_succ, Finset.sum_range_zero, List.getD_cons_zero,
    List.getD_cons_succ]
  congr 1
  ring

/-- Participants 0 and 2 sign, both honestly: all checks succeed, and the resulting signature is accepted only for
the messages whose challenge, as an integer below `L`, is even. -/
theorem C94_violated_torsion (sha hash : Bytes → Bytes) (ord : MapOrder) (x : Nat → ZMod L) (a b r s k k' : ZMod L)
    (msg : Bytes) (hx : Accepted (x 2 • basePt)) (hk : Accepted (k' • basePt)) :
    let S := edSuite sha hash
    let d := sess sha hash x a b r s msg 0
    let h := chal sha (r • basePt) (a • basePt + t2) msg
    Dss.newDss S (x 0) d.participants d.long d.random msg 2 = .ok d ∧
    d.long.share.v • basePt = pointVal d.long.commits ((d.index + 1 : Nat) : ZMod L) ∧
    d.random.share.v • basePt = pointVal d.random.commits ((d.index + 1 : Nat) : ZMod L) ∧
    ∃ ps e d1, Dss.partialSig S k' (sess sha hash x a b r s msg 2) = .ok (ps, e) ∧
      Dss.processPartialSig S (dssRun S d [.own k]) ps = .ok d1 ∧ d1 = dssRun S d [.own k, .recv ps] ∧
      indices d1.partials = {0, 2} ∧
      ∃ sig, Dss.signature S ord d1 = .ok sig ∧ sig = ptEnc (r • basePt) ++ leBytes 32 (r + h * a).val ∧
        (eddsaVerify sha (ptEnc (a • basePt + t2)) msg sig = .ok () ↔
          Accepted (r • basePt) ∧ Accepted (a • basePt + t2) ∧ h.val % 2 = 0) := by
  intro S d h
  have hlong : ∀ i, i % 2 = 0 → i + 1 < L → (a + ((i + 1 : Nat) : ZMod L) * b) • basePt =
      pointVal [a • basePt + t2, b • basePt + t2] ((i + 1 : Nat) : ZMod L) :=
    fun i h1 h2 => (long_val a b i h2 h1).symm
  have hrand : ∀ i : Nat, (r + ((i + 1 : Nat) : ZMod L) * s) • basePt =
      pointVal [r • basePt, s • basePt] ((i + 1 : Nat) : ZMod L) := fun i => (random_val r s _).symm
  have hnew : Dss.newDss S (x 0) d.participants d.long d.random msg 2 = .ok d := by
    unfold Dss.newDss
    have : d.participants.findIdx? (fun p => decide (p = x 0 • S.base)) = some 0 := by
      show [x 0 • basePt, x 1 • basePt, x 2 • basePt].findIdx? _ = _
      rw [List.findIdx?_cons]
      simp [S, edSuite]
    simp only [this]
    rfl
  refine ⟨hnew, hlong 0 rfl (by decide +kernel), hrand 0, ?_⟩
  obtain ⟨ps0, d0, h0, e1, e2, e3, e4⟩ : ∃ ps d0, Dss.partialSig S k d = .ok (ps, d0) ∧
      d0.partials = [some ps.partialShare] ∧ ps.partialShare.i = 0 ∧
      d0 = { d with partialsIdx := AMap.insert [] 0 true, partials := [some ps.partialShare], signed := true } ∧
      ps.partialShare.v = h * (a + ((0 + 1 : Nat) : ZMod L) * b) + (r + ((0 + 1 : Nat) : ZMod L) * s) :=
    ⟨_, _, rfl, rfl, rfl, rfl, rfl⟩
  obtain ⟨ps2, d2, h2, f1, f2, f3, f4⟩ : ∃ ps d2, Dss.partialSig S k' (sess sha hash x a b r s msg 2) = .ok (ps, d2) ∧
      ps.partialShare.i = 2 ∧
      ps.partialShare.v = h * (a + ((2 + 1 : Nat) : ZMod L) * b) + (r + ((2 + 1 : Nat) : ZMod L) * s) ∧
      ps.sessionId = d.sessionId ∧ ps.signature = sign S k' (x 2) (S.hash (S.hash (S.encS ps.partialShare.v ++
        u32le ps.partialShare.i) ++ ps.sessionId)) := ⟨_, _, rfl, rfl, rfl, rfl, rfl⟩
  have hrun0 : dssRun S d [.own k] = d0 := by
    unfold dssRun
    simp only [List.foldl_cons, List.foldl_nil, dssStep, h0]
  have hl := (edSuite_lawful sha hash).base_lin
  have hacc := (C18_accepts_iff S d0 { d0 with partialsIdx := d0.partialsIdx.insert ps2.partialShare.i true
                                               partials := d0.partials ++ [some ps2.partialShare] } ps2).2
    ⟨x 2 • basePt, r • basePt, a • basePt + t2, by rw [f1, e3]; rfl, by
      rw [f4]
      exact C11_sign_verify S (edSuite_lawful sha hash) k' (x 2) _ ((usable_iff sha hash _).2 hk).1
        ((usable_iff sha hash _).2 hk).2 ((usable_iff sha hash _).2 hx).1 ((usable_iff sha hash _).2 hx).2,
      by rw [f3, e3], by rw [f1, e3]; rfl, by rw [e3]; rfl, by rw [e3]; rfl, by
      rw [f2, f1, e3]
      show _ • basePt = pointVal [r • basePt, s • basePt] _ + h • pointVal [a • basePt + t2, b • basePt + t2] _
      rw [← hrand 2, ← hlong 2 rfl (by decide +kernel), ← (lin_of_order L_smul_base).mul,
        ← (lin_of_order L_smul_base).add, add_comm], rfl⟩
  have hrun : dssRun S d [.own k, .recv ps2] = { d0 with partialsIdx := d0.partialsIdx.insert ps2.partialShare.i true
                                                         partials := d0.partials ++ [some ps2.partialShare] } := by
    unfold dssRun
    simp only [List.foldl_cons, List.foldl_nil, dssStep, h0, hacc]
  have hind : indices ([some ps0.partialShare] ++ [some ps2.partialShare]) = {0, 2} := by
    ext i
    simp [indices, e2, f1]
  refine ⟨ps2, d2, _, h2, by rw [hrun0]; exact hacc, hrun.symm, ?_, ?_⟩
  · show indices (d0.partials ++ [some ps2.partialShare]) = _
    rw [e1, hind]
  have hrec : recoverSecret ord ([some ps0.partialShare] ++ [some ps2.partialShare]) 2 = .ok (r + h * a) := by
    refine C01_recover_secret L ord (r + h * a) [s + h * b] _ 2 ?_ ?_ le_rfl ?_
    · intro q hq
      have hp : ∀ y : ZMod L, polyVal [r + h * a, s + h * b] y = h * (a + y * b) + (r + y * s) := by
        intro y
        simp only [polyVal, List.length_cons, List.length_nil, Finset.sum_range_succ, Finset.sum_range_zero,
          List.getD_cons_zero, List.getD_cons_succ]
        ring
      simp only [List.cons_append, List.nil_append, List.mem_cons, Option.some.injEq, List.not_mem_nil, or_false] at hq
      rcases hq with rfl | rfl
      · rw [e4, e2, hp]
      · rw [f2, f1, hp]
    · intro i hi
      rw [hind] at hi
      have h02 : i = 0 ∨ i = 2 := by simpa using hi
      have : 2 < L := by decide +kernel
      omega
    · rw [hind]; decide
  refine ⟨_, ?_, rfl, ?_⟩
  · unfold Dss.signature
    rw [if_neg (by
      show Dss.enoughPartialSig _ ≠ false
      unfold Dss.enoughPartialSig
      simp only [e1, e3]
      rw [show d.t = 2 from rfl]
      simp)]
    simp only [e1]
    rw [show d0.t = 2 by rw [e3]; rfl, hrec, show d0.random = d.random by rw [e3]]
    rfl
  · rw [sig_iff]
    refine and_congr_right fun _ => and_congr_right fun _ => ?_
    have e5 : h • (a • basePt + t2) = h • (a • basePt) + h • t2 := smul_add _ _ _
    show (r + h * a) • basePt = r • basePt + h • (a • basePt + t2) ↔ _
    rw [e5, (lin_of_order L_smul_base).add, (lin_of_order L_smul_base).mul, ← add_assoc, left_eq_add, act_def, smul_t2]
    split
    · simp_all
    · simp_all [t2_ne]

end DssTorsion

open DssTorsion in
theorem C94_violated : ¬ C94_statement := by
  intro hst
  let sha : Bytes → Bytes := fun _ => leBytes 64 1
  let x : Nat → ZMod L := fun _ => 1
  have hA : Accepted ((1 : ZMod L) • basePt + t2) := by
    refine ⟨?_, ?_⟩
    · rw [add_t2_y, RunsExample.one_act]
      show (-((46316835694926478169428394003475163141307993866256225615783033603165251855960 : Nat) : Fp)).val < _
      decide +kernel
    · rw [smul_add, show (8 : Nat) = 4 * 2 by rfl, mul_smul 4 2 t2, t2_two, smul_zero, add_zero]
      exact RunsExample.accepted_one.2
  obtain ⟨h1, h2, h3, ps, e, d1, h4, h5, rfl, h7, sig, h8, h9, h10⟩ := C94_violated_torsion sha sha MapOrder.id x 1 1 1 1 1 1 []
    RunsExample.accepted_one RunsExample.accepted_one
  obtain ⟨sig', g1, g2⟩ := hst sha sha MapOrder.id 1 _ ((1 : ZMod L) • basePt) ((1 : ZMod L) • basePt + t2)
    [(1 : ZMod L) • basePt] [(1 : ZMod L) • basePt + t2] 2 _ _ [] _ [.own 1, .recv ps] (by
      show 3 ≤ L
      decide +kernel) rfl rfl h1 h2 h3 (by rw [h7]; decide) RunsExample.accepted_one hA
  rw [h8, Res.ok.injEq] at g1
  subst g1
  have := (h10.1 g2).2.2
  have hv : (chal sha ((1 : ZMod L) • basePt) ((1 : ZMod L) • basePt + t2) []).val = 1 := by
    unfold chal
    rw [val_natCast_L]
    decide +kernel
  rw [hv] at this
  exact absurd this (by decide)

end Kyber.Ed
