/-
C106: the honest runs on edwards25519, where the deals travel in their binary form.
-/
import Verif.Props.EdRuns
import Verif.Props.Bincode
import Verif.Spec.Ed.Codec

namespace Kyber.Ed

open Kyber Kyber.ModInt Kyber.Schnorr Kyber.Poly Kyber.Spec Kyber.Props Kyber.Bin

theorem Tight.i32s {f : Fe} (h : Tight f) : I32s f := by
  refine ⟨h.1, fun x hx => ?_⟩
  obtain ⟨i, hi, rfl⟩ := List.mem_iff_getElem.1 hx
  have h1 := h.2 i
  have h2 : limb f i = f[i] := by
    unfold limb
    rw [List.getD_eq_getElem?_getD, List.getElem?_eq_getElem hi]; rfl
  rw [h2, abs_le] at h1
  have h3 : tightA.getD i 0 ≤ 36909875 := by
    have : i < 10 := h.1 ▸ hi
    revert i
    intro i
    intros
    interval_cases i <;> decide
  constructor <;> norm_num <;> omega

theorem Ext.Rep.i32s {p : Pt} {q : EdPt} (h : p.ge.Rep q) : p.I32s :=
  ⟨h.bx.i32s, h.by_.i32s, h.bz.i32s, h.bt.i32s⟩

theorem reads_z : binZ.Reads (fun _ => True) := by
  intro s r _
  simp only [binZ]
  rw [exact_scalar.of_ser (length_leBytes _ _) r, Option.map_some, leNat_leBytes, Nat.mod_eq_of_lt
    (lt_of_lt_of_le (ZMod.val_lt s) (by decide +kernel)), ZMod.natCast_zmod_val]

theorem reads_ed {rep : EdPt → Pt} (h : ∀ p, (rep p).ge.Rep p) : (binEd rep).Reads (fun _ => True) := by
  intro p r _
  simp only [binEd]
  rw [exact_point.of_ser (h p).i32s r]
  simp only [Option.bind_eq_bind, Option.bind_some]
  rw [extPt_rep (h p)]
  rfl

theorem reads_dealP {F G : Type} {S : Bin F} {P : Bin G} {fS : F → Prop} {fP : G → Prop} (hS : S.Reads fS)
    (hP : P.Reads fP) : (VssP.binDeal S P).Reads (DealFits fS fP) :=
  (exact_bytes.reads.pair ((reads_share hS).pair (exact_usize.reads.pair hP.vec))).iso (fun _ => rfl)

theorem reads_dealR {F G : Type} {S : Bin F} {P : Bin G} {fS : F → Prop} {fP : G → Prop} (hS : S.Reads fS)
    (hP : P.Reads fP) : (VssR.binDeal S P).Reads (DealFitsR fS fP) :=
  (exact_bytes.reads.pair ((reads_share hS).pair ((reads_share hS).pair
    (exact_usize.reads.pair hP.vec)))).iso (fun _ => rfl)

theorem reads_deal {F G : Type} {S : Bin F} {P : Bin G} (hS : S.Reads (fun _ => True))
    (hP : P.Reads (fun _ => True)) (dl : VssP.Deal F G)
    (h : DealFits (fun _ => True) (fun _ => True) dl) :
    (VssP.binCodec S P).dec ((VssP.binCodec S P).enc dl) = some dl := by
  have h1 := (reads_dealP hS hP).unmarshal h
  simp only [VssP.binCodec]
  exact h1

theorem reads_deal_rabin {F G : Type} {S : Bin F} {P : Bin G} (hS : S.Reads (fun _ => True))
    (hP : P.Reads (fun _ => True)) (dl : VssR.Deal F G)
    (h : DealFitsR (fun _ => True) (fun _ => True) dl) :
    (VssR.binCodec S P).dec ((VssR.binCodec S P).enc dl) = some dl := by
  have h1 := (reads_dealR hS hP).unmarshal h
  simp only [VssR.binCodec]
  exact h1

theorem validT_lt {t : Nat} {pubs : List EdPt} (h : VssP.validT t pubs = true) : 2 ≤ t ∧ t < 2 ^ 32 := by
  simp only [VssP.validT, Bool.and_eq_true, decide_eq_true_eq] at h
  refine ⟨h.1.1, ?_⟩
  have := Nat.mod_lt t (show 0 < 4294967296 by decide)
  norm_num
  omega

/-- The deals of a dealer can be written and read. -/
theorem dealer_deals {rep : EdPt → Pt} (hr : ∀ p, (rep p).ge.Rep p) {S : Suite (ZMod L) EdPt}
    (hh : ∀ b, (S.hash b).length < 2 ^ 64) {x secret : ZMod L} {pubs : List EdPt} (hn : pubs.length ≤ 2 ^ 64)
    {t : Nat} {draws : List (ZMod L)} {d : VssP.Dealer (ZMod L) EdPt}
    (h : VssP.newDealer S x secret pubs t draws = .ok d) (dl : VssP.Deal (ZMod L) EdPt) (hd : dl ∈ d.deals) :
    (VssP.binCodec binZ (binEd rep)).dec ((VssP.binCodec binZ (binEd rep)).enc dl) = some dl := by
  obtain ⟨hv, hl, -, -, -, -, -, -, h8, h9, -, h11, -⟩ := VssP.newDealer_ok h
  obtain ⟨ht, ht'⟩ := validT_lt hv
  rw [h11] at hd
  obtain ⟨i, hi, rfl⟩ := List.mem_map.1 hd
  have hi := List.mem_range.1 hi
  refine reads_deal reads_z (reads_ed hr) _ ⟨?_, ⟨?_, trivial⟩, ?_, ?_, fun _ _ => trivial⟩
  · simp only [h9]
    exact hh _
  · show i < 2 ^ 64
    omega
  · show t < 2 ^ 64
    omega
  · simp only [W64, h8, List.length_map, List.length_cons, List.length_take]
    omega

theorem dealer_deals_rabin {rep : EdPt → Pt} (hr : ∀ p, (rep p).ge.Rep p) {E : VssR.Env (ZMod L) EdPt}
    (hh : ∀ b, (E.suite.hash b).length < 2 ^ 64) {x secret : ZMod L} {pubs : List EdPt} (hn : pubs.length ≤ 2 ^ 64)
    {t : Nat} {fD gD : List (ZMod L)} {d : VssR.Dealer (ZMod L) EdPt}
    (h : VssR.newDealer E x secret pubs t fD gD = .ok d) (dl : VssR.Deal (ZMod L) EdPt) (hd : dl ∈ d.deals) :
    (VssR.binCodec binZ (binEd rep)).dec ((VssR.binCodec binZ (binEd rep)).enc dl) = some dl := by
  obtain ⟨f, g, hfl, hgl, -, -, -, hv, -, -, -, -, -, -, -, h8, h9, -⟩ := VssR.newDealer_ok h
  obtain ⟨ht, ht'⟩ := validT_lt hv
  rw [h9] at hd
  obtain ⟨i, hi, rfl⟩ := List.mem_map.1 hd
  have hi := List.mem_range.1 hi
  refine reads_deal_rabin reads_z (reads_ed hr) _ ⟨?_, ⟨?_, trivial⟩, ⟨?_, trivial⟩, ?_, ?_, fun _ _ => trivial⟩
  · simp only [h8]
    exact hh _
  · show i < 2 ^ 64
    omega
  · show i < 2 ^ 64
    omega
  · show t < 2 ^ 64
    omega
  · simp only [W64, VssR.commitsOf, List.length_zipWith]
    omega

/-- C106: the Pedersen DKG on edwards25519, with the deals in their binary form: nothing is assumed
about the serialisation any more, only that the hash has less than `2^64` bytes. `rep` says which
coordinates of a point are written. -/
theorem C106_pedersen_dkg (sha hash : Bytes → Bytes) (hh : ∀ b, (hash b).length < 2 ^ 64)
    (rep : EdPt → Pt) (hr : ∀ p, (rep p).ge.Rep p) (E : DkgP.DkgEnv (ZMod L) EdPt)
    (hE : E.suite = edSuite sha hash) (hB : E.codec = VssP.binCodec binZ (binEd rep)) (hP : E.prims.Lawful)
    (hO : DkgP.PrimsOk E) (N : Net (ZMod L) EdPt) (h : DkgOk E N)
    (ht : N.t ≠ 0) (hn : N.n ≤ 2 ^ 64) (z : ZMod L) :
    ∃ (secret : ZMod L) (commits : List EdPt) (share : Nat → ZMod L),
      commits.head? = some (secret • basePt) ∧
      (ptMul (leBytes 32 secret.val) none).Rep (secret • basePt) ∧
      (∀ i < N.n, ∀ s, Schedule N.n i s → Complete N.n i s → ∀ ord,
        ∃ k, (dRun E (N.D i) (s.map (HMsg.call E N z i))).distKeyShare E.suite ord = .ok k ∧
          k.commits = commits ∧ k.share = ⟨i, share i⟩) ∧
      (∀ ord (sel : List Nat), (∀ i ∈ sel, i < N.n) → N.t ≤ sel.toFinset.card →
        recoverSecret ord (sel.map fun i => some ⟨i, share i⟩) N.t = .ok secret) := by
  refine C93_pedersen_dkg sha hash E hE hP hO N h (fun j hj dl hd => ?_) ht
    (hn.trans (by decide +kernel)) z
  rw [hB]
  refine dealer_deals hr (S := E.suite) (by rw [hE]; exact hh) ?_ (DkgP.honest_new (h.honest hE).fair hj trivial).2.1 dl hd
  unfold Net.pubs
  rw [List.length_map, List.length_range]
  exact hn

/-- C106: the same for the Rabin DKG. -/
theorem C106_rabin_dkg (sha hash : Bytes → Bytes) (hh : ∀ b, (hash b).length < 2 ^ 64)
    (rep : EdPt → Pt) (hr : ∀ p, (rep p).ge.Rep p) (E : VssR.Env (ZMod L) EdPt)
    (hE : E.suite = edSuite sha hash) (hB : E.codec = VssR.binCodec binZ (binEd rep)) (hP : E.prims.Lawful)
    (hH : ∀ b, Picked (E.pickFrom b)) (hO : DkgR.PrimsOkR E) (N : RNet (ZMod L) EdPt) (h : RDkgOk E N)
    (ht : N.t ≠ 0) (hn : N.n ≤ 2 ^ 64) (z : ZMod L) :
    ∃ (secret : ZMod L) (commits : List EdPt) (share : Nat → ZMod L),
      commits.head? = some (secret • basePt) ∧
      (ptMul (leBytes 32 secret.val) none).Rep (secret • basePt) ∧
      (∀ i < N.n, ∀ s, RSchedule N.n i s → RComplete N.n i s → ∀ ord ord',
        ∃ k, (qRun E (N.D i) (s.map (RMsg.call E N z ord i))).distKeyShare ord' = .ok k ∧
          k.commits = commits ∧ k.share = ⟨i, share i⟩) ∧
      (∀ ord (sel : List Nat), (∀ i ∈ sel, i < N.n) → N.t ≤ sel.toFinset.card →
        recoverSecret ord (sel.map fun i => some ⟨i, share i⟩) N.t = .ok secret) := by
  refine C93_rabin_dkg sha hash E hE hP hH hO N h (fun j hj dl hd => ?_) ht
    (hn.trans (by decide +kernel)) z
  rw [hB]
  refine dealer_deals_rabin hr (E := E) (by rw [hE]; exact hh) ?_
    (DkgR.newDistKeyGenerator_ok (h.start j hj)).2.1 dl hd
  unfold RNet.pubs
  rw [List.length_map, List.length_range]
  exact hn

/-- Coordinates for every point: those that decoding its encoding gives. -/
theorem exists_rep : ∃ rep : EdPt → Pt, ∀ p, (rep p).ge.Rep p := by
  choose u hu using fun p => (edDec_iff _ p).1 (edDec_enc p)
  exact ⟨fun p => ⟨u p, false⟩, fun p => (hu p).2⟩

open RunsExample in
/-- Two participants that exchange deals in their binary form. -/
example (sha hash : Bytes → Bytes) : ∃ (rep : EdPt → Pt) (E : DkgP.DkgEnv (ZMod L) EdPt) (N : Net (ZMod L) EdPt),
    (∀ p, (rep p).ge.Rep p) ∧ E.suite = edSuite sha hash ∧ E.codec = VssP.binCodec binZ (binEd rep) ∧
    E.prims.Lawful ∧ DkgP.PrimsOk E ∧
    DkgOk E N ∧ N.t = 2 ∧ N.n = 2 ∧ Schedule N.n 1 sched ∧ Complete N.n 1 sched := by
  obtain ⟨rep, hr⟩ := exists_rep
  choose D hD using fun (i : Nat) (hi : i < 2) => C93_pedersen_start sha hash 2 2 key i hi le_rfl le_rfl (by decide) 5 [7]
    (by decide)
  refine ⟨rep, ⟨⟨edSuite sha hash, Toy.prims, VssP.binCodec binZ (binEd rep)⟩, fun _ _ => []⟩,
    ⟨2, 2, key, fun _ => 5, fun _ => [7], fun _ _ => 1, fun _ _ => 1, fun _ _ => 1, fun _ _ => 1,
      fun i => if h : i < 2 then D i h else D 0 (by decide)⟩, hr, rfl, rfl, Toy.prims_lawful,
    ⟨fun _ _ => rfl, fun _ _ _ _ => rfl⟩,
    ⟨key_inj, fun i _ => accepted_key i, fun _ _ => accepted_one, fun _ _ => accepted_one, fun _ _ => accepted_one, ?_⟩,
    rfl, rfl, sched_ok.1, sched_ok.2⟩
  intro i hi
  simp only
  rw [dif_pos hi]
  exact hD i hi

end Kyber.Ed
