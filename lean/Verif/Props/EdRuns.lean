/-
C93: the protocols on edwards25519, honest runs.
-/
import Verif.Props.EdSuite
import Verif.Props.Dss
import Verif.Props.DkgPedersenHonest
import Verif.Props.DkgRabinHonest

namespace Kyber.Ed

open Kyber Kyber.ModInt Kyber.Schnorr Kyber.Poly Kyber.Spec Kyber.Props

/-- What "usable" means on the curve: `y < p - 217` and not of small order. -/
theorem usable_iff (sha hash : Bytes → Bytes) (p : EdPt) : Usable (edSuite sha hash) p ↔ Accepted p := by
  constructor
  · rintro ⟨h1, h2⟩
    exact ((dec_canon_iff _ p).1 ⟨edDec_enc p, h1, (small_iff sha hash p).1 h2⟩).2
  · intro h
    exact ⟨canon_of h.1, (small_iff sha hash p).2 h.2⟩

theorem base_inj {a b : ZMod L} (h : a • basePt = b • basePt) : a = b := by
  have e : (a - b) • basePt = 0 := by rw [(lin_of_order L_smul_base).sub, h, sub_self]
  have h5 := (small_base (a - b).val).1 (by rw [← act_def, e, smul_zero])
  have h6 := Nat.eq_zero_of_dvd_of_lt h5 (ZMod.val_lt _)
  rw [ZMod.val_eq_zero, sub_eq_zero] at h6
  exact h6

/-- Nonzero scalars give points that are not of small order. -/
theorem accepted_iff (a : ZMod L) : Accepted (a • basePt) ↔ a ≠ 0 ∧ (a • basePt).y.val < P - 217 := by
  unfold Accepted
  rw [and_comm]
  refine and_congr_left fun _ => ?_
  rw [act_def, Ne, small_base, not_iff_not, ← ZMod.val_eq_zero]
  exact ⟨fun h => Nat.eq_zero_of_dvd_of_lt h (ZMod.val_lt _), fun h => h ▸ dvd_zero _⟩

/-- The participants of a Pedersen DKG on the curve: distinct keys, and keys and nonces whose points the
library does not refuse. -/
structure DkgOk (E : DkgP.DkgEnv (ZMod L) EdPt) (N : Net (ZMod L) EdPt) : Prop where
  keys : ∀ i < N.n, ∀ j < N.n, N.x i = N.x j → i = j
  x : ∀ i < N.n, Accepted (N.x i • basePt)
  k : ∀ i j, Accepted (N.k i j • basePt)
  rnd : ∀ i j, Accepted (N.rnd i j • basePt)
  vk : ∀ i j, Accepted (N.vk i j • basePt)
  start : ∀ i < N.n, DkgP.newDistKeyGenerator E.suite (N.x i) (N.pubs E) N.t (N.sec i) (N.draws i) = .ok (N.D i)

theorem pubs_nodup {x : Nat → ZMod L} {n : Nat} (h : ∀ i < n, ∀ j < n, x i = x j → i = j) :
    ((List.range n).map (fun i => x i • basePt)).Nodup := by
  refine List.Nodup.map_on ?_ List.nodup_range
  intro i hi j hj he
  exact h i (List.mem_range.1 hi) j (List.mem_range.1 hj) (base_inj he)

theorem DkgOk.honest {sha hash : Bytes → Bytes} {E : DkgP.DkgEnv (ZMod L) EdPt} (hE : E.suite = edSuite sha hash)
    {N : Net (ZMod L) EdPt} (h : DkgOk E N) : N.Honest E := by
  refine ⟨?_, ?_, ?_, ?_, ?_, h.start⟩
  · unfold Net.pubs
    rw [hE]
    exact pubs_nodup h.keys
  · rw [hE]; exact fun i hi => (usable_iff sha hash _).2 (h.x i hi)
  · rw [hE]; exact fun i j => (usable_iff sha hash _).2 (h.k i j)
  · rw [hE]; exact fun i j => (usable_iff sha hash _).2 (h.rnd i j)
  · rw [hE]; exact fun i j => (usable_iff sha hash _).2 (h.vk i j)

/-- C93: a Pedersen DKG among honest participants on edwards25519. Whatever the order in which the
messages arrive, each of them finishes with the same commitments and its own share; any `t` of the
shares recover one secret, and the distributed key is the point that `Point::mul` computes from it. -/
theorem C93_pedersen_dkg (sha hash : Bytes → Bytes) (E : DkgP.DkgEnv (ZMod L) EdPt)
    (hE : E.suite = edSuite sha hash) (hP : E.prims.Lawful)
    (hO : DkgP.PrimsOk E) (N : Net (ZMod L) EdPt) (h : DkgOk E N)
    (hC : ∀ j < N.n, ∀ dl ∈ (N.D j).dealer.deals, E.codec.dec (E.codec.enc dl) = some dl)
    (ht : N.t ≠ 0) (hn : N.n ≤ L) (z : ZMod L) :
    ∃ (secret : ZMod L) (commits : List EdPt) (share : Nat → ZMod L),
      commits.head? = some (secret • basePt) ∧
      (ptMul (leBytes 32 secret.val) none).Rep (secret • basePt) ∧
      (∀ i < N.n, ∀ s, Schedule N.n i s → Complete N.n i s → ∀ ord,
        ∃ k, (dRun E (N.D i) (s.map (HMsg.call E N z i))).distKeyShare E.suite ord = .ok k ∧
          k.commits = commits ∧ k.share = ⟨i, share i⟩) ∧
      (∀ ord (sel : List Nat), (∀ i ∈ sel, i < N.n) → N.t ≤ sel.toFinset.card →
        recoverSecret ord (sel.map fun i => some ⟨i, share i⟩) N.t = .ok secret) := by
  have hS : E.suite.Lawful := hE ▸ edSuite_lawful sha hash
  have hb : E.suite.base = basePt := by rw [hE]; rfl
  have hh := h.honest hE
  refine ⟨∑ j ∈ Finset.range N.n, N.sec j, (sumPoly N N.t).map (fun c => c • E.suite.base),
    fun i => polyVal (sumPoly N N.t) ((i + 1 : Nat) : ZMod L), ?_, mul_base_model _, ?_, ?_⟩
  · obtain ⟨t, ht⟩ : ∃ t, N.t = t + 1 := ⟨N.t - 1, by omega⟩
    rw [hb, ht]
    unfold sumPoly
    rw [List.range_succ_eq_map, List.map_cons, List.map_cons, List.head?_cons]
    rfl
  · intro i hi s hs hc ord
    have := (C33_honest_run E hS hP hO N hh hC z N.t (by rw [if_pos ht]) i hi s hs).2 hc ord
    exact ⟨_, this.2, rfl, rfl⟩
  · intro ord sel hsel hcount
    exact (C33_honest_recover L E.suite ord N N.t (by omega) hn sel hsel hcount).1

/-- Generators exist for all distinct keys and all `2 ≤ t ≤ n`. -/
theorem C93_pedersen_start (sha hash : Bytes → Bytes) (n t : Nat) (x : Nat → ZMod L) (i : Nat) (hi : i < n)
    (ht : 2 ≤ t) (htn : t ≤ n) (hn : n < 2 ^ 32) (secret : ZMod L) (draws : List (ZMod L))
    (hd : t - 1 ≤ draws.length) :
    ∃ d, DkgP.newDistKeyGenerator (edSuite sha hash) (x i) ((List.range n).map (fun i => x i • basePt)) t
      secret draws = .ok d := by
  rw [C33_new_generator_ok (edSuite sha hash) (x i) _ t t secret draws (by rw [if_pos (by omega)]) hd
    (by simpa using hn)]
  refine ⟨List.mem_map.2 ⟨i, List.mem_range.2 hi, rfl⟩, ht, by simpa using htn⟩

/-! ## Rabin -/

/-- A point that `Point::pick` can return. -/
def Picked (p : EdPt) : Prop :=
  ∃ (σ : Type) (S : Rand.Stream σ) (fuel : Nat) (self : Ext) (st : σ) (s : Ext),
    ptPick S fuel self st = some (.ok s) ∧ s.Rep p

theorem Picked.lin {p : EdPt} (h : Picked p) : Lin (ZMod L) p := by
  obtain ⟨σ, S, fuel, self, st, s, h1, h2⟩ := h
  obtain ⟨hv, h3, -⟩ := C59_pick S fuel self st s h1
  rw [h2.pt_eq] at h3
  exact lin_of_order h3

/-- The participants of a Rabin DKG on the curve. -/
structure RDkgOk (E : VssR.Env (ZMod L) EdPt) (N : RNet (ZMod L) EdPt) : Prop where
  keys : ∀ i < N.n, ∀ j < N.n, N.x i = N.x j → i = j
  x : ∀ i < N.n, Accepted (N.x i • basePt)
  k : ∀ i j, Accepted (N.k i j • basePt)
  vk : ∀ i j, Accepted (N.vk i j • basePt)
  ck : ∀ i, Accepted (N.ck i • basePt)
  start : ∀ i < N.n, DkgR.newDistKeyGenerator E (N.x i) (N.pubs E) N.t (N.sec i) (N.fD i) (N.gD i) = .ok (N.D i)

theorem RDkgOk.honest {sha hash : Bytes → Bytes} {E : VssR.Env (ZMod L) EdPt} (hE : E.suite = edSuite sha hash)
    {N : RNet (ZMod L) EdPt} (h : RDkgOk E N) : N.Honest E := by
  refine ⟨?_, ?_, ?_, ?_, ?_, h.start⟩
  · unfold RNet.pubs
    rw [hE]
    exact pubs_nodup h.keys
  · rw [hE]; exact fun i hi => (usable_iff sha hash _).2 (h.x i hi)
  · rw [hE]; exact fun i j => (usable_iff sha hash _).2 (h.k i j)
  · rw [hE]; exact fun i j => (usable_iff sha hash _).2 (h.vk i j)
  · rw [hE]; exact fun i => (usable_iff sha hash _).2 (h.ck i)

/-- C93: a Rabin DKG among honest participants on edwards25519, where the second generator is any point
that `pick` can return. -/
theorem C93_rabin_dkg (sha hash : Bytes → Bytes) (E : VssR.Env (ZMod L) EdPt)
    (hE : E.suite = edSuite sha hash) (hP : E.prims.Lawful) (hH : ∀ b, Picked (E.pickFrom b))
    (hO : DkgR.PrimsOkR E) (N : RNet (ZMod L) EdPt) (h : RDkgOk E N)
    (hC : ∀ j < N.n, ∀ dl ∈ (N.D j).dealer.deals, E.codec.dec (E.codec.enc dl) = some dl)
    (ht : N.t ≠ 0) (hn : N.n ≤ L) (z : ZMod L) :
    ∃ (secret : ZMod L) (commits : List EdPt) (share : Nat → ZMod L),
      commits.head? = some (secret • basePt) ∧
      (ptMul (leBytes 32 secret.val) none).Rep (secret • basePt) ∧
      (∀ i < N.n, ∀ s, RSchedule N.n i s → RComplete N.n i s → ∀ ord ord',
        ∃ k, (qRun E (N.D i) (s.map (RMsg.call E N z ord i))).distKeyShare ord' = .ok k ∧
          k.commits = commits ∧ k.share = ⟨i, share i⟩) ∧
      (∀ ord (sel : List Nat), (∀ i ∈ sel, i < N.n) → N.t ≤ sel.toFinset.card →
        recoverSecret ord (sel.map fun i => some ⟨i, share i⟩) N.t = .ok secret) := by
  have hS : E.suite.Lawful := hE ▸ edSuite_lawful sha hash
  have hb : E.suite.base = basePt := by rw [hE]; rfl
  have hh := h.honest hE
  refine ⟨∑ j ∈ Finset.range N.n, N.sec j, (rSumPoly N).map (fun c => c • E.suite.base),
    fun i => polyVal (rSumPoly N) ((i + 1 : Nat) : ZMod L), ?_, mul_base_model _, ?_, ?_⟩
  · obtain ⟨t, ht⟩ : ∃ t, N.t = t + 1 := ⟨N.t - 1, by omega⟩
    rw [hb]
    unfold rSumPoly
    rw [ht, List.range_succ_eq_map, List.map_cons, List.map_cons, List.head?_cons]
    rfl
  · intro i hi s hs hc ord ord'
    have := (C39_honest_run E hS hP (fun b => (hH b).lin) hO N hh hC z ord i hi s hs).2 hc ord'
    exact ⟨_, this.2, rfl, rfl⟩
  · intro ord sel hsel hcount
    exact (C39_honest_recover L E.suite ord N (by omega) hn sel hsel hcount).1

/-- Generators exist for all distinct keys and all `2 ≤ t ≤ n`. -/
theorem C93_rabin_start (E : VssR.Env (ZMod L) EdPt) (sha hash : Bytes → Bytes) (hE : E.suite = edSuite sha hash)
    (n t : Nat) (x : Nat → ZMod L) (i : Nat) (hi : i < n)
    (ht : 2 ≤ t) (htn : t ≤ n) (hn : n < 2 ^ 32) (secret : ZMod L) (fD gD : List (ZMod L))
    (hf : t - 1 ≤ fD.length) (hg : t ≤ gD.length) :
    ∃ d, DkgR.newDistKeyGenerator E (x i) ((List.range n).map (fun i => x i • basePt)) t
      secret fD gD = .ok d := by
  have hb : E.suite.base = basePt := by rw [hE]; rfl
  rw [C39_new_generator_ok E (x i) _ t secret fD gD hf hg (by simpa using hn), hb]
  refine ⟨List.mem_map.2 ⟨i, List.mem_range.2 hi, rfl⟩, ht, by simpa using htn⟩

/-! ## Threshold signatures -/

theorem rfc_verifies (sha : Bytes → Bytes) (k x : Nat) (msg : Bytes) :
    Rfc8032.Verifies sha 1 (ptEnc (x • basePt)) msg (ptEnc (k • basePt) ++ leBytes 32 ((k + x *
      leNat (sha (ptEnc (k • basePt) ++ ptEnc (x • basePt) ++ msg))) % L)) := by
  unfold Rfc8032.Verifies
  simp only [take_enc, drop_enc, leNat_leBytes_mod]
  refine ⟨by rw [List.length_append, length_ptEnc, length_leBytes], _, _, decodes_enc _, decodes_enc _,
    Nat.mod_lt _ L_pos, ?_⟩
  rw [mod_smul_base, one_smul, one_smul, one_smul, add_smul, smul_smul, mul_comm x]

/-- C93: a threshold signature made with honest long-term and random keys on edwards25519 is, byte for byte, the
EdDSA signature of the shared secret with the shared nonce, whatever the messages received before; the library and
RFC 8032 accept it for the distributed key, the library unless it refuses one of the points. -/
theorem C93_dss (sha hash : Bytes → Bytes) (ord : MapOrder)
    (x : ZMod L) (participants : List EdPt) (hn : participants.length ≤ L)
    (a r : ZMod L) (as rs : List (ZMod L)) (t : Nat) (has : (a :: as).length = t) (hrs : (r :: rs).length = t)
    (longShare randomShare : Share (ZMod L)) (msg : Bytes) (d : Dss.DSS (ZMod L) EdPt)
    (hnew : Dss.newDss (edSuite sha hash) x participants ⟨longShare, (a :: as).map (· • basePt)⟩
      ⟨randomShare, (r :: rs).map (· • basePt)⟩ msg t = .ok d)
    (hlong : longShare.v = polyVal (a :: as) ((d.index + 1 : Nat) : ZMod L))
    (hrandom : randomShare.v = polyVal (r :: rs) ((d.index + 1 : Nat) : ZMod L))
    (calls : List (DssCall (ZMod L)))
    (hcount : t ≤ (indices (dssRun (edSuite sha hash) d calls).partials).card) :
    ∃ sig, Dss.signature (edSuite sha hash) ord (dssRun (edSuite sha hash) d calls) = .ok sig ∧
      sig = ptEnc (r • basePt) ++ leBytes 32 ((r.val + a.val *
        leNat (sha (ptEnc (r • basePt) ++ ptEnc (a • basePt) ++ msg))) % L) ∧
      Rfc8032.Verifies sha 1 (ptEnc (a • basePt)) msg sig ∧
      (eddsaVerify sha (ptEnc (a • basePt)) msg sig = .ok () ↔ Accepted (r • basePt) ∧ Accepted (a • basePt)) := by
  have hs := C17_signature L ord (edSuite sha hash) (edSuite_lawful sha hash).base_lin
    (fun s h => base_inj (a := s) (b := 0) (h.trans (lin_of_order L_smul_base).zero.symm)) x participants hn a r as rs t has hrs
    longShare randomShare msg d hnew hlong hrandom calls hcount
  have e : ((r + dssChallenge (edSuite sha hash) (r • basePt) (a • basePt) msg * a : ZMod L)).val =
      (r.val + a.val * leNat (sha (ptEnc (r • basePt) ++ ptEnc (a • basePt) ++ msg))) % L := by
    rw [← ZMod.val_natCast]
    congr 1
    push_cast
    rw [ZMod.natCast_zmod_val, ZMod.natCast_zmod_val, mul_comm a]
    rfl
  have e2 : (edSuite sha hash).encG (r • basePt) ++ (edSuite sha hash).encS
      (r + dssChallenge (edSuite sha hash) (r • basePt) (a • basePt) msg * a) =
      ptEnc (r • basePt) ++ leBytes 32 ((r.val + a.val *
        leNat (sha (ptEnc (r • basePt) ++ ptEnc (a • basePt) ++ msg))) % L) :=
    congrArg (fun n => ptEnc (r • basePt) ++ leBytes 32 n) e
  refine ⟨_, hs.trans (congrArg Res.ok e2), rfl, ?_, ?_⟩
  · exact rfc_verifies sha r.val a.val msg
  · rw [eddsaVerify_iff]
    exact sigOk_iff sha r.val a.val msg

/-! ## The hypotheses are met

Two participants with the keys 1 and -1. -/

namespace RunsExample

theorem accepted_base : Accepted basePt := by
  refine ⟨?_, ?_⟩
  · show ((46316835694926478169428394003475163141307993866256225615783033603165251855960 : Nat) : Fp).val < _
    rw [ZMod.val_natCast]
    decide +kernel
  · have := (small_base 1).not.2 (by decide +kernel)
    rwa [one_smul] at this

theorem one_act : (1 : ZMod L) • basePt = basePt := by rw [act_def, ZMod.val_one, one_smul]

theorem neg_act : (-1 : ZMod L) • basePt = -basePt := by rw [(lin_of_order L_smul_base).neg, one_act]

def key (i : Nat) : ZMod L := if i = 0 then 1 else -1

theorem accepted_one : Accepted ((1 : ZMod L) • basePt) := by rw [one_act]; exact accepted_base

theorem accepted_key (i : Nat) : Accepted (key i • basePt) := by
  unfold key
  split
  · exact accepted_one
  · rw [neg_act]
    refine ⟨accepted_base.1, ?_⟩
    rw [smul_neg, Ne, neg_eq_zero]
    exact accepted_base.2

theorem key_inj : ∀ i < 2, ∀ j < 2, key i = key j → i = j := by
  have h : (1 : ZMod L) ≠ -1 := by decide +kernel
  intro i hi j hj he
  unfold key at he
  have : i = 0 ∨ i = 1 := by omega
  have : j = 0 ∨ j = 1 := by omega
  rcases ‹i = 0 ∨ i = 1› with rfl | rfl <;> rcases ‹j = 0 ∨ j = 1› with rfl | rfl
  · rfl
  · exact absurd he h
  · exact absurd he.symm h
  · rfl

instance : Countable UInt8 := Function.Injective.countable (f := UInt8.toNat) (fun _ _ h => UInt8.toNat_inj.1 h)

instance : Countable EdPt := Function.Injective.countable (f := fun p : EdPt => (p.x, p.y)) (fun p q h => by
  ext
  · exact congrArg Prod.fst h
  · exact congrArg Prod.snd h)

/-- Some serialisation that can be undone. -/
theorem exists_codec (α : Type) [Countable α] : ∃ (enc : α → Bytes) (dec : Bytes → Option α), ∀ d, dec (enc d) = some d := by
  letI := Encodable.ofCountable α
  exact ⟨fun d => List.replicate (Encodable.encode d) 0, fun b => Encodable.decode b.length, fun d => by
    simp only [List.length_replicate, Encodable.encodek]⟩

instance : Countable (VssP.Deal (ZMod L) EdPt) := Function.Injective.countable
  (f := fun d => (d.sessionId, d.secShare.i, d.secShare.v, d.t, d.commitments)) (by
    rintro ⟨a, ⟨b, c⟩, d, e⟩ ⟨a', ⟨b', c'⟩, d', e'⟩ h
    simp only [Prod.mk.injEq] at h
    obtain ⟨rfl, rfl, rfl, rfl, rfl⟩ := h
    rfl)

instance : Countable (VssR.Deal (ZMod L) EdPt) := Function.Injective.countable
  (f := fun d => (d.sessionId, d.secShare.i, d.secShare.v, d.rndShare.i, d.rndShare.v, d.t, d.commitments)) (by
    rintro ⟨a, ⟨b, c⟩, ⟨f, g⟩, d, e⟩ ⟨a', ⟨b', c'⟩, ⟨f', g'⟩, d', e'⟩ h
    simp only [Prod.mk.injEq] at h
    obtain ⟨rfl, rfl, rfl, rfl, rfl, rfl, rfl⟩ := h
    rfl)

/-- Participant 1 of 2. -/
def sched : List HMsg := [.resp 1 0, .deal 0, .deals]

theorem sched_ok : Schedule 2 1 sched ∧ Complete 2 1 sched := by
  refine ⟨⟨?_, ?_⟩, ?_⟩
  · intro m hm
    simp only [sched, List.mem_cons, List.not_mem_nil, or_false] at hm
    rcases hm with rfl | rfl | rfl <;> simp [HMsg.Wanted]
  · intro m hm
    by_cases hin : m ∈ sched
    · simp only [sched, List.mem_cons, List.not_mem_nil, or_false] at hin
      rcases hin with rfl | rfl | rfl <;> decide
    · rw [List.count_eq_zero_of_not_mem hin]; omega
  · intro m hw hm
    cases m with
    | deals => decide
    | deal j =>
      obtain ⟨h1, h2⟩ := hw
      obtain rfl : j = 0 := by omega
      decide
    | resp j l =>
      obtain ⟨h1, h2, h3, h4⟩ := hw
      obtain rfl : l = 0 := by omega
      obtain rfl : j = 1 := by omega
      decide
    | timeout => exact absurd rfl hm

/-- The hypotheses of `C93_pedersen_dkg` hold for two participants and threshold 2. -/
theorem net_example (sha hash : Bytes → Bytes) : ∃ (E : DkgP.DkgEnv (ZMod L) EdPt) (N : Net (ZMod L) EdPt),
    E.suite = edSuite sha hash ∧ E.prims.Lawful ∧ (∀ d, E.codec.dec (E.codec.enc d) = some d) ∧ DkgP.PrimsOk E ∧
    DkgOk E N ∧ N.t = 2 ∧ N.n = 2 ∧ N.n ≤ L ∧ Schedule N.n 1 sched ∧ Complete N.n 1 sched := by
  obtain ⟨enc, dec, hc⟩ := exists_codec (VssP.Deal (ZMod L) EdPt)
  choose D hD using fun (i : Nat) (hi : i < 2) => C93_pedersen_start sha hash 2 2 key i hi le_rfl le_rfl (by decide) 5 [7]
    (by decide)
  refine ⟨⟨⟨edSuite sha hash, Toy.prims, ⟨enc, dec⟩⟩, fun _ _ => []⟩,
    ⟨2, 2, key, fun _ => 5, fun _ => [7], fun _ _ => 1, fun _ _ => 1, fun _ _ => 1, fun _ _ => 1,
      fun i => if h : i < 2 then D i h else D 0 (by decide)⟩, rfl, Toy.prims_lawful, hc, ⟨fun _ _ => rfl, fun _ _ _ _ => rfl⟩,
    ⟨key_inj, fun i _ => accepted_key i, fun _ _ => accepted_one, fun _ _ => accepted_one, fun _ _ => accepted_one, ?_⟩,
    rfl, rfl, (by decide +kernel : 2 ≤ L), sched_ok.1, sched_ok.2⟩
  intro i hi
  simp only
  rw [dif_pos hi]
  exact hD i hi

/-- Participant 1 of 2. -/
def schedR : List RMsg := [.deal 0, .deals, .resp 1 0, .commits 0, .ownCommits]

theorem schedR_ok : RSchedule 2 1 schedR ∧ RComplete 2 1 schedR := by
  refine ⟨⟨?_, ?_, ?_⟩, ?_⟩
  · intro m hm
    simp only [schedR, List.mem_cons, List.not_mem_nil, or_false] at hm
    rcases hm with rfl | rfl | rfl | rfl | rfl <;> simp [RMsg.Wanted]
  · intro m hm
    by_cases hin : m ∈ schedR
    · simp only [schedR, List.mem_cons, List.not_mem_nil, or_false] at hin
      rcases hin with rfl | rfl | rfl | rfl | rfl <;> decide
    · rw [List.count_eq_zero_of_not_mem hin]; omega
  · intro pre m post he m' hm'
    unfold schedR at he
    rcases pre with _ | ⟨a, _ | ⟨b, _ | ⟨c, _ | ⟨d, _ | ⟨e, _ | ⟨f, pre⟩⟩⟩⟩⟩⟩ <;>
      simp only [List.nil_append, List.cons_append, List.cons.injEq, reduceCtorEq, and_false] at he
    · obtain ⟨rfl, -⟩ := he
      exact hm'.elim
    · obtain ⟨rfl, rfl, -⟩ := he
      exact hm'.elim
    · obtain ⟨rfl, rfl, rfl, -⟩ := he
      obtain rfl : m' = .deals := hm'
      decide
    · obtain ⟨rfl, rfl, rfl, rfl, -⟩ := he
      rcases hm' with rfl | ⟨l, h1, h2, h3, rfl⟩
      · decide
      · omega
    · obtain ⟨rfl, rfl, rfl, rfl, rfl, -⟩ := he
      rcases hm' with rfl | ⟨l, h1, h2, rfl⟩
      · decide
      · obtain rfl : l = 0 := by omega
        decide
  · intro m hw hm
    cases m with
    | deals => decide
    | ownCommits => decide
    | deal j =>
      obtain ⟨h1, h2⟩ := hw
      obtain rfl : j = 0 := by omega
      decide
    | commits j =>
      obtain ⟨h1, h2⟩ := hw
      obtain rfl : j = 0 := by omega
      decide
    | resp j l =>
      obtain ⟨h1, h2, h3, h4⟩ := hw
      obtain rfl : l = 0 := by omega
      obtain rfl : j = 1 := by omega
      decide
    | timeout => exact absurd rfl hm

/-- The hypotheses of `C93_rabin_dkg` hold for two participants and threshold 2. -/
theorem rnet_example (sha hash : Bytes → Bytes) : ∃ (E : VssR.Env (ZMod L) EdPt) (N : RNet (ZMod L) EdPt),
    E.suite = edSuite sha hash ∧ E.prims.Lawful ∧ (∀ b, Picked (E.pickFrom b)) ∧
    (∀ d, E.codec.dec (E.codec.enc d) = some d) ∧ DkgR.PrimsOkR E ∧
    RDkgOk E N ∧ N.t = 2 ∧ N.n = 2 ∧ N.n ≤ L ∧ RSchedule N.n 1 schedR ∧ RComplete N.n 1 schedR := by
  obtain ⟨enc, dec, hc⟩ := exists_codec (VssR.Deal (ZMod L) EdPt)
  let E : VssR.Env (ZMod L) EdPt := ⟨edSuite sha hash, Toy.prims, ⟨enc, dec⟩, fun _ => 8 • basePt⟩
  choose D hD using fun (i : Nat) (hi : i < 2) => C93_rabin_start E sha hash rfl 2 2 key i hi le_rfl le_rfl (by decide) 5 [7]
    [3, 4] (by decide) (by decide)
  refine ⟨E, ⟨2, 2, key, fun _ => 5, fun _ => [7], fun _ => [3, 4], fun _ _ => 1, fun _ _ => 1, fun _ _ => 1, fun _ => 1,
      fun i => if h : i < 2 then D i h else D 0 (by decide)⟩, rfl, Toy.prims_lawful, fun _ => ?_, hc,
    ⟨fun _ _ => rfl, fun _ _ _ _ => rfl⟩,
    ⟨key_inj, fun i _ => accepted_key i, fun _ _ => accepted_one, fun _ _ => accepted_one, fun _ => accepted_one, ?_⟩,
    rfl, rfl, (by decide +kernel : 2 ≤ L), schedR_ok.1, schedR_ok.2⟩
  · obtain ⟨s, h1, h2⟩ := pick_example extZero
    exact ⟨_, _, _, _, _, s, h1, h2⟩
  · intro i hi
    simp only
    rw [dif_pos hi]
    exact hD i hi

/-- A session of participant `i`: long-term key of the polynomial `5 + 7 X`, random key of `1 + 2 X`. -/
noncomputable def dss (sha hash : Bytes → Bytes) (i : Nat) : Dss.DSS (ZMod L) EdPt :=
  let long : Dss.DistKeyShare (ZMod L) EdPt := ⟨⟨i, polyVal [5, 7] ((i + 1 : Nat) : ZMod L)⟩, [5, 7].map (· • basePt)⟩
  let random : Dss.DistKeyShare (ZMod L) EdPt := ⟨⟨i, polyVal [1, 2] ((i + 1 : Nat) : ZMod L)⟩, [1, 2].map (· • basePt)⟩
  { secret := key i, pub := key i • basePt, index := i, participants := [key 0 • basePt, key 1 • basePt], t := 2
    long := long, random := random, msg := [1], partials := [], partialsIdx := [], signed := false
    sessionId := Dss.sessionId (edSuite sha hash) long random }

/-- The hypotheses of `C93_dss` hold for two participants and threshold 2, after the own partial signature
and that of the other one. -/
example (sha hash : Bytes → Bytes) : ∃ calls,
    Dss.newDss (edSuite sha hash) (key 0) [key 0 • basePt, key 1 • basePt] (dss sha hash 0).long
      (dss sha hash 0).random [1] 2 = .ok (dss sha hash 0) ∧
    2 ≤ (indices (dssRun (edSuite sha hash) (dss sha hash 0) calls).partials).card := by
  have hnew : Dss.newDss (edSuite sha hash) (key 0) [key 0 • basePt, key 1 • basePt] (dss sha hash 0).long
      (dss sha hash 0).random [1] 2 = .ok (dss sha hash 0) := by
    unfold Dss.newDss
    have : [key 0 • basePt, key 1 • basePt].findIdx? (fun p => decide (p = key 0 • (edSuite sha hash).base)) = some 0 := by
      rw [List.findIdx?_cons]
      simp [edSuite]
    simp only [this]
    rfl
  obtain ⟨ps0, d0, h0, e1, e2, e3⟩ : ∃ ps d, Dss.partialSig (edSuite sha hash) 1 (dss sha hash 0) = .ok (ps, d) ∧
      d.partials = [some ps.partialShare] ∧ ps.partialShare.i = 0 ∧
      d = { dss sha hash 0 with partialsIdx := AMap.insert [] 0 true, partials := [some ps.partialShare], signed := true } :=
    ⟨_, _, rfl, rfl, rfl, rfl⟩
  obtain ⟨ps1, d1, h1, f2⟩ : ∃ ps d, Dss.partialSig (edSuite sha hash) 1 (dss sha hash 1) = .ok (ps, d) ∧
      ps.partialShare.i = 1 := ⟨_, _, rfl, rfl⟩
  obtain ⟨d', g1, g2⟩ := C17_honest_accepted (edSuite sha hash) (edSuite_lawful sha hash) 1 d0 (dss sha hash 1) d1 ps1
    [5, 7] [1, 2] (by rw [e3]; rfl) (by rw [e3]; rfl) rfl rfl (by rw [e3]; rfl) (by rw [e3]; rfl) (by rw [e3]; rfl)
    rfl rfl (by rw [e3]; rfl) ((usable_iff sha hash _).2 accepted_one) ((usable_iff sha hash _).2 (accepted_key 1)) h1
  refine ⟨[.own 1, .recv ps1], hnew, ?_⟩
  have hrun : dssRun (edSuite sha hash) (dss sha hash 0) [.own 1, .recv ps1] = d' := by
    unfold dssRun
    simp only [List.foldl_cons, List.foldl_nil, dssStep, h0, g1]
  rw [hrun, g2, e1]
  have : indices ([some ps0.partialShare] ++ [some ps1.partialShare]) = {0, 1} := by
    ext i
    simp [indices, e2, f2]
  rw [this]
  decide

end RunsExample

end Kyber.Ed
