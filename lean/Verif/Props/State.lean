/-
C118: saved state reads back.
-/
import Verif.Lemmas.State
import Verif.Props.EdBincode

namespace Kyber.Props

open Kyber Kyber.Bin Kyber.Poly

variable {F G : Type}

/-! ## When two objects are the same

A hash map has no order, so a map that was read back agrees with the one that was written in its keys
and values; everything else is equal. -/

def SameAggP (a a' : VssP.Aggregator F G) : Prop :=
  a' = { a with responses := a'.responses } ∧ MapR Eq a.responses a'.responses

def SameDealerP (d d' : VssP.Dealer F G) : Prop :=
  d' = { d with aggregator := d'.aggregator } ∧ SameAggP d.aggregator d'.aggregator

def SameVerifierP (v v' : VssP.Verifier F G) : Prop :=
  v' = { v with aggregator := v'.aggregator } ∧ SameAggP v.aggregator v'.aggregator

def SameAggR (a a' : VssR.Aggregator F G) : Prop :=
  a' = { a with responses := a'.responses } ∧ MapR Eq a.responses a'.responses

def SameDealerR (d d' : VssR.Dealer F G) : Prop :=
  d' = { d with aggregator := d'.aggregator } ∧ SameAggR d.aggregator d'.aggregator

def SameVerifierR (v v' : VssR.Verifier F G) : Prop :=
  v' = { v with aggregator := v'.aggregator } ∧ OptR SameAggR v.aggregator v'.aggregator

def SameDkgP (d d' : DkgP.Dkg F G) : Prop :=
  d' = { d with dealer := d'.dealer, verifiers := d'.verifiers, oldAggregators := d'.oldAggregators } ∧
  SameDealerP d.dealer d'.dealer ∧ MapR SameVerifierP d.verifiers d'.verifiers ∧
  MapR SameAggP d.oldAggregators d'.oldAggregators

def SameDkgR (d d' : DkgR.Dkg F G) : Prop :=
  d' = { d with dealer := d'.dealer, verifiers := d'.verifiers, commitments := d'.commitments,
                pendingReconstruct := d'.pendingReconstruct, reconstructed := d'.reconstructed } ∧
  SameDealerR d.dealer d'.dealer ∧ MapR SameVerifierR d.verifiers d'.verifiers ∧
  MapR Eq d.commitments d'.commitments ∧ MapR Eq d.pendingReconstruct d'.pendingReconstruct ∧
  MapR Eq d.reconstructed d'.reconstructed

def SameDss (d d' : Dss.DSS F G) : Prop :=
  d' = { d with partialsIdx := d'.partialsIdx } ∧ MapR Eq d.partialsIdx d'.partialsIdx

/-! ## What fits the widths of the fields -/

def LFits {α : Type} (f : α → Prop) (l : List α) : Prop := W64 l.length ∧ ∀ a ∈ l, f a

def OFits {α : Type} (f : α → Prop) (o : Option α) : Prop := ∀ a ∈ o, f a

/-- A map with keys that fit `k` and values that fit `f`. Distinct keys: what every `AMap` of the model
has, being a `HashMap`. -/
def MFits {α : Type} (k : Nat → Prop) (f : α → Prop) (m : AMap α) : Prop :=
  W64 m.length ∧ m.keys.Nodup ∧ ∀ e ∈ m, k e.1 ∧ f e.2

variable (fS : F → Prop) (fP : G → Prop)

def AggFitsP (a : VssP.Aggregator F G) : Prop :=
  LFits fP a.verifiers ∧ LFits fP a.commits ∧ MFits W32 ResponseFits a.responses ∧ W64 a.sid.length ∧
  OFits (DealFits fS fP) a.deal ∧ W64 a.t

def DealerFitsP (d : VssP.Dealer F G) : Prop :=
  fS d.long ∧ fP d.pubb ∧ fS d.secret ∧ LFits fP d.secretCommits ∧ LFits fS d.secretPoly.coeffs ∧
  LFits fP d.verifiers ∧ W64 d.hkdfContext.length ∧ W64 d.t ∧ W64 d.sessionId.length ∧
  LFits (DealFits fS fP) d.deals ∧ AggFitsP fS fP d.aggregator

def VerifierFitsP (v : VssP.Verifier F G) : Prop :=
  fS v.longterm ∧ fP v.pubb ∧ fP v.dealer ∧ W64 v.index ∧ LFits fP v.verifiers ∧
  W64 v.hkdfContext.length ∧ AggFitsP fS fP v.aggregator

def AggFitsR (a : VssR.Aggregator F G) : Prop :=
  LFits fP a.verifiers ∧ LFits fP a.commits ∧ MFits W32 ResponseFits a.responses ∧ W64 a.sid.length ∧
  OFits (DealFitsR fS fP) a.deal ∧ W64 a.t

def DealerFitsR (d : VssR.Dealer F G) : Prop :=
  fS d.long ∧ fP d.pubb ∧ fS d.secret ∧ LFits fP d.secretCommits ∧
  LFits fP d.verifiers ∧ W64 d.hkdfContext.length ∧ W64 d.t ∧ W64 d.sessionId.length ∧
  LFits (DealFitsR fS fP) d.deals ∧ AggFitsR fS fP d.aggregator

def VerifierFitsR (v : VssR.Verifier F G) : Prop :=
  fS v.longterm ∧ fP v.pubb ∧ fP v.dealer ∧ W64 v.index ∧ LFits fP v.verifiers ∧
  W64 v.hkdfContext.length ∧ OFits (AggFitsR fS fP) v.aggregator

def KeyFitsP (k : DkgP.DistKeyShare F G) : Prop :=
  LFits fP k.commits ∧ ShareFits fS k.share ∧ LFits fS k.privatePoly

def ConfigFits (c : DkgP.Config F G) : Prop :=
  fS c.longterm ∧ LFits fP c.oldNodes ∧ OFits (LFits fP) c.publicCoeffs ∧ LFits fP c.newNodes ∧
  OFits (KeyFitsP fS fP) c.share ∧ W64 c.threshold ∧ W64 c.oldThreshold

def PolyFits (p : PubPoly G) : Prop := OFits fP p.b ∧ LFits fP p.commits

def DkgFitsP (od : Nat → G) (d : DkgP.Dkg F G) : Prop :=
  ConfigFits fS fP d.c ∧ fP d.pubb ∧ PolyFits fP d.dpub ∧ DealerFitsP fS fP d.dealer ∧
  MFits W32 (VerifierFitsP fS fP) d.verifiers ∧ MFits W32 (AggFitsP fS fP) d.oldAggregators ∧
  (∀ e ∈ d.oldAggregators, fP (od e.1)) ∧ W64 d.oidx ∧ W64 d.nidx ∧ W64 d.oldT ∧ W64 d.newT

def RecFits (r : DkgR.ReconstructCommits F) : Prop :=
  W64 r.sessionId.length ∧ W32 r.index ∧ W32 r.dealerIndex ∧ ShareFits fS r.share ∧ W64 r.signature.length

def DkgFitsR (d : DkgR.Dkg F G) : Prop :=
  W32 d.index ∧ fS d.long ∧ fP d.pubb ∧ LFits fP d.participants ∧ W64 d.t ∧ DealerFitsR fS fP d.dealer ∧
  MFits W32 (VerifierFitsR fS fP) d.verifiers ∧ MFits W32 (PolyFits fP) d.commitments ∧
  MFits W32 (LFits (RecFits fS)) d.pendingReconstruct ∧ MFits W32 (fun _ => True) d.reconstructed

def DssFits (fK : Dss.DistKeyShare F G → Prop) (base : G) (d : Dss.DSS F G) : Prop :=
  fS d.secret ∧ fP d.pub ∧ W64 d.index ∧ LFits fP d.participants ∧ W64 d.t ∧ fK d.long ∧ fK d.random ∧
  fP base ∧ LFits fP d.long.commits ∧ LFits fP d.random.commits ∧ W64 d.msg.length ∧
  LFits (OFits (ShareFits fS)) d.partials ∧ MFits W64 (fun _ => True) d.partialsIdx ∧
  W64 d.sessionId.length

variable {fS fP} {S : Bin F} {P : Bin G} (ord : MapOrder)

/-! ## C118 -/

theorem reads_priPoly (hS : S.Reads fS) : (binPriPoly S).Reads (fun p => LFits fS p.coeffs) :=
  hS.vec.iso fun _ => rfl

theorem reads_pubPoly (hP : P.Reads fP) : (binPubPoly P).Reads (PolyFits fP) :=
  (hP.option.pair hP.vec).iso fun _ => rfl

theorem readsTo_responses : (map ord u32 VssP.binResponse).ReadsTo (MFits W32 ResponseFits) (MapR Eq) :=
  exact_response.reads.to.map exact_u32.reads ord

theorem readsTo_aggP (hS : S.Reads fS) (hP : P.Reads fP) :
    (VssP.binAggregator ord S P).ReadsTo (fun a => fP a.1 ∧ AggFitsP fS fP a.2)
      (fun a a' => a'.1 = a.1 ∧ SameAggP a.2 a'.2) := by
  refine ((hP.to.pair (hP.vec.to.pair (hP.vec.to.pair ((readsTo_responses ord).pair (exact_bytes.reads.to.pair
    ((Ed.reads_dealP hS hP).option.to.pair (exact_usize.reads.to.pair
    (exact_bool.reads.to.pair exact_bool.reads.to)))))))).iso ?_).imp ?_ (fun _ _ h => h)
  · rintro ⟨k, a⟩ ⟨x1, x2, x3, x4, x5, x6, x7, x8, x9⟩ ⟨h1, h2, h3, h4, h5, h6, h7, h8, h9⟩
    simp only at h1 h2 h3 h4 h5 h6 h7 h8 h9
    subst h1 h2 h3 h5 h6 h7 h8 h9
    exact ⟨rfl, rfl, h4⟩
  · rintro ⟨k, a⟩ ⟨h0, h1, h2, h3, h4, h5, h6⟩
    exact ⟨h0, h1, h2, h3, h4, h5, h6, trivial, trivial⟩

theorem readsTo_aggR (hS : S.Reads fS) (hP : P.Reads fP) :
    (VssR.binAggregator ord S P).ReadsTo (fun a => fP a.1 ∧ AggFitsR fS fP a.2)
      (fun a a' => a'.1 = a.1 ∧ SameAggR a.2 a'.2) := by
  refine ((hP.to.pair (hP.vec.to.pair (hP.vec.to.pair ((readsTo_responses ord).pair (exact_bytes.reads.to.pair
    ((Ed.reads_dealR hS hP).option.to.pair (exact_usize.reads.to.pair
    exact_bool.reads.to))))))).iso ?_).imp ?_ (fun _ _ h => h)
  · rintro ⟨k, a⟩ ⟨x1, x2, x3, x4, x5, x6, x7, x8⟩ ⟨h1, h2, h3, h4, h5, h6, h7, h8⟩
    simp only at h1 h2 h3 h4 h5 h6 h7 h8
    subst h1 h2 h3 h5 h6 h7 h8
    exact ⟨rfl, rfl, h4⟩
  · rintro ⟨k, a⟩ ⟨h0, h1, h2, h3, h4, h5, h6⟩
    exact ⟨h0, h1, h2, h3, h4, h5, h6, trivial⟩

theorem readsTo_dealerP (hS : S.Reads fS) (hP : P.Reads fP) :
    (VssP.binDealer ord S P).ReadsTo (DealerFitsP fS fP) SameDealerP := by
  refine ((hS.to.pair (hP.to.pair (hS.to.pair (hP.vec.to.pair ((reads_priPoly hS).to.pair (hP.vec.to.pair
    (exact_bytes.reads.to.pair (exact_usize.reads.to.pair (exact_bytes.reads.to.pair
    ((Ed.reads_dealP hS hP).vec.to.pair (readsTo_aggP ord hS hP))))))))))).iso ?_).imp ?_ (fun _ _ h => h)
  · rintro d ⟨x1, x2, x3, x4, x5, x6, x7, x8, x9, x10, x11, x12⟩
      ⟨h1, h2, h3, h4, h5, h6, h7, h8, h9, h10, h11, h12⟩
    simp only at h1 h2 h3 h4 h5 h6 h7 h8 h9 h10 h11 h12
    subst h1 h2 h3 h4 h5 h6 h7 h8 h9 h10
    exact ⟨rfl, h12⟩
  · rintro d ⟨h1, h2, h3, h4, h5, h6, h7, h8, h9, h10, h11⟩
    exact ⟨h1, h2, h3, h4, h5, h6, h7, h8, h9, h10, h2, h11⟩

theorem readsTo_dealerR (hS : S.Reads fS) (hP : P.Reads fP) :
    (VssR.binDealer ord S P).ReadsTo (DealerFitsR fS fP) SameDealerR := by
  refine ((hS.to.pair (hP.to.pair (hS.to.pair (hP.vec.to.pair (hP.vec.to.pair
    (exact_bytes.reads.to.pair (exact_usize.reads.to.pair (exact_bytes.reads.to.pair
    ((Ed.reads_dealR hS hP).vec.to.pair (readsTo_aggR ord hS hP)))))))))).iso ?_).imp ?_ (fun _ _ h => h)
  · rintro d ⟨x1, x2, x3, x4, x5, x7, x8, x9, x10, x11, x12⟩
      ⟨h1, h2, h3, h4, h5, h7, h8, h9, h10, h11, h12⟩
    simp only at h1 h2 h3 h4 h5 h7 h8 h9 h10 h11 h12
    subst h1 h2 h3 h4 h5 h7 h8 h9 h10
    exact ⟨rfl, h12⟩
  · rintro d ⟨h1, h2, h3, h4, h5, h7, h8, h9, h10, h11⟩
    exact ⟨h1, h2, h3, h4, h5, h7, h8, h9, h10, h2, h11⟩

theorem readsTo_verifierP (hS : S.Reads fS) (hP : P.Reads fP) :
    (VssP.binVerifier ord S P).ReadsTo (VerifierFitsP fS fP) SameVerifierP := by
  refine ((hS.to.pair (hP.to.pair (hP.to.pair (exact_usize.reads.to.pair (hP.vec.to.pair
    (exact_bytes.reads.to.pair (readsTo_aggP ord hS hP).option)))))).piso ?_).imp ?_ (fun _ _ h => h)
  · rintro v ⟨x1, x2, x3, x4, x5, x6, x7⟩ ⟨h1, h2, h3, h4, h5, h6, h7⟩
    simp only at h1 h2 h3 h4 h5 h6 h7
    match x7, h7 with
    | some a, h7 =>
      subst h1 h2 h3 h4 h5 h6
      exact ⟨_, rfl, rfl, h7.2⟩
  · rintro v ⟨h1, h2, h3, h4, h5, h6, h7⟩
    refine ⟨h1, h2, h3, h4, h5, h6, fun a ha => ?_⟩
    cases ha
    exact ⟨h3, h7⟩

theorem readsTo_verifierR (hS : S.Reads fS) (hP : P.Reads fP) :
    (VssR.binVerifier ord S P).ReadsTo (VerifierFitsR fS fP) SameVerifierR := by
  refine ((hS.to.pair (hP.to.pair (hP.to.pair (exact_usize.reads.to.pair (hP.vec.to.pair
    (exact_bytes.reads.to.pair (readsTo_aggR ord hS hP).option)))))).iso ?_).imp ?_ (fun _ _ h => h)
  · rintro v ⟨x1, x2, x3, x4, x5, x6, x7⟩ ⟨h1, h2, h3, h4, h5, h6, h7⟩
    obtain ⟨l, p, d, i, vs, c, a⟩ := v
    simp only at h1 h2 h3 h4 h5 h6 h7
    subst h1 h2 h3 h4 h5 h6
    refine ⟨rfl, ?_⟩
    match a, x7, h7 with
    | none, none, _ => exact trivial
    | some a, some a', h => exact h.2
  · rintro v ⟨h1, h2, h3, h4, h5, h6, h7⟩
    refine ⟨h1, h2, h3, h4, h5, h6, fun a ha => ?_⟩
    rw [Option.mem_def, Option.map_eq_some_iff] at ha
    obtain ⟨a', ha', rfl⟩ := ha
    exact ⟨h3, h7 _ ha'⟩

/-- C118: polynomials, private and public. -/
theorem C118_poly (hS : S.Reads fS) (hP : P.Reads fP) :
    (∀ p : PriPoly F, LFits fS p.coeffs →
      (binPriPoly S).unmarshal ((binPriPoly S).marshal p) = some p) ∧
    (∀ p : PubPoly G, PolyFits fP p → (binPubPoly P).unmarshal ((binPubPoly P).marshal p) = some p) :=
  ⟨fun _ h => (reads_priPoly hS).unmarshal h, fun _ h => (reads_pubPoly hP).unmarshal h⟩

/-- C118: dealers and verifiers of Pedersen's VSS. -/
theorem C118_vss_pedersen (hS : S.Reads fS) (hP : P.Reads fP) :
    (∀ d : VssP.Dealer F G, DealerFitsP fS fP d → ∃ d',
      (VssP.binDealer ord S P).unmarshal ((VssP.binDealer ord S P).marshal d) = some d' ∧ SameDealerP d d') ∧
    (∀ v : VssP.Verifier F G, VerifierFitsP fS fP v → ∃ v',
      (VssP.binVerifier ord S P).unmarshal ((VssP.binVerifier ord S P).marshal v) = some v' ∧
        SameVerifierP v v') :=
  ⟨fun _ h => (readsTo_dealerP ord hS hP).unmarshal h, fun _ h => (readsTo_verifierP ord hS hP).unmarshal h⟩

/-- C118: dealers and verifiers of Rabin's VSS. -/
theorem C118_vss_rabin (hS : S.Reads fS) (hP : P.Reads fP) :
    (∀ d : VssR.Dealer F G, DealerFitsR fS fP d → ∃ d',
      (VssR.binDealer ord S P).unmarshal ((VssR.binDealer ord S P).marshal d) = some d' ∧ SameDealerR d d') ∧
    (∀ v : VssR.Verifier F G, VerifierFitsR fS fP v → ∃ v',
      (VssR.binVerifier ord S P).unmarshal ((VssR.binVerifier ord S P).marshal v) = some v' ∧
        SameVerifierR v v') :=
  ⟨fun _ h => (readsTo_dealerR ord hS hP).unmarshal h, fun _ h => (readsTo_verifierR ord hS hP).unmarshal h⟩

theorem reads_keyP (hS : S.Reads fS) (hP : P.Reads fP) : (DkgP.binDistKeyShare S P).Reads (KeyFitsP fS fP) :=
  (hP.vec.pair ((reads_share hS).pair hS.vec)).iso fun _ => rfl

theorem reads_config {ρ : Type} {R : Bin ρ} {fR : ρ → Prop} (hS : S.Reads fS) (hP : P.Reads fP)
    (hR : R.Reads fR) : (DkgP.binConfig S P R).Reads (fun c => ConfigFits fS fP c.1 ∧ OFits fR c.2.1) := by
  intro c r h
  obtain ⟨⟨h1, h2, h3, h4, h5, h6, h7⟩, h8⟩ := h
  exact ((hS.pair (hP.vec.pair (hP.vec.option.pair (hP.vec.pair ((reads_keyP hS hP).option.pair
    (exact_usize.reads.pair (exact_usize.reads.pair (hR.option.pair exact_bool.reads)))))))).iso
    (fun _ => rfl)) c r ⟨h1, h2, h3, h4, h5, h6, h7, h8, trivial⟩

/-- C118: configurations of Pedersen's DKG, whatever the type of the reader. -/
theorem C118_config {ρ : Type} {R : Bin ρ} {fR : ρ → Prop} (hS : S.Reads fS) (hP : P.Reads fP)
    (hR : R.Reads fR) (c : DkgP.Config F G) (reader : Option ρ) (only : Bool) (h : ConfigFits fS fP c)
    (hr : OFits fR reader) :
    (DkgP.binConfig S P R).unmarshal ((DkgP.binConfig S P R).marshal (c, reader, only)) =
      some (c, reader, only) :=
  (reads_config hS hP hR).unmarshal ⟨h, hr⟩

/-- Leaving out the key of the dealer. -/
theorem mapR_old {m : AMap (VssP.Aggregator F G)} {od : Nat → G} {m' : AMap (G × VssP.Aggregator F G)}
    (h : MapR (fun a a' => a'.1 = a.1 ∧ SameAggP a.2 a'.2) (m.map fun e => (e.1, (od e.1, e.2))) m') :
    MapR SameAggP m (m'.map fun e => (e.1, e.2.2)) := by
  have g1 : ∀ (m' : AMap (G × VssP.Aggregator F G)) k,
      AMap.get (m'.map fun e => (e.1, e.2.2)) k = (AMap.get m' k).map Prod.snd := by
    intro m' k
    induction m' with
    | nil => rfl
    | cons e m' ih =>
      obtain ⟨a, b⟩ := e
      simp only [List.map_cons, AMap.get_cons]
      split <;> simp_all
  have g2 : ∀ (m : AMap (VssP.Aggregator F G)) k, AMap.get (m.map fun e => (e.1, (od e.1, e.2))) k =
      (AMap.get m k).map fun a => (od k, a) := by
    intro m k
    induction m with
    | nil => rfl
    | cons e m ih =>
      obtain ⟨a, b⟩ := e
      simp only [List.map_cons, AMap.get_cons]
      split <;> simp_all
  refine ⟨?_, fun k => ?_⟩
  · have := h.1
    simpa [AMap.keys, Function.comp_def] using this
  · have := h.2 k
    rw [g2] at this
    rw [g1]
    revert this
    cases m.get k <;> cases AMap.get m' k <;> intro h
    · exact trivial
    · exact h
    · exact h
    · exact h.2

/-- C118: a generator of Pedersen's DKG, with the reader of its configuration. -/
theorem C118_dkg_pedersen {ρ : Type} {R : Bin ρ} {fR : ρ → Prop} (hS : S.Reads fS) (hP : P.Reads fP)
    (hR : R.Reads fR) (od : Nat → G) (d : DkgP.Dkg F G) (reader : Option ρ) (only : Bool)
    (h : DkgFitsP fS fP od d) (hr : OFits fR reader) : ∃ d',
    (DkgP.binDkg ord S P R od).unmarshal ((DkgP.binDkg ord S P R od).marshal (d, reader, only)) =
      some (d', reader, only) ∧ SameDkgP d d' := by
  have key : (DkgP.binDkg ord S P R od).ReadsTo (fun d => DkgFitsP fS fP od d.1 ∧ OFits fR d.2.1)
      (fun d d' => d'.2 = d.2 ∧ SameDkgP d.1 d'.1) := by
    refine (((reads_config hS hP hR).to.pair (hS.to.pair (hP.to.pair ((reads_pubPoly hP).to.pair
      ((readsTo_dealerP ord hS hP).pair (((readsTo_verifierP ord hS hP).map exact_u32.reads ord).pair
      (((readsTo_aggP ord hS hP).map exact_u32.reads ord).pair (exact_usize.reads.to.pair
      (exact_usize.reads.to.pair (exact_usize.reads.to.pair (exact_usize.reads.to.pair
      (exact_bool.reads.to.pair (exact_bool.reads.to.pair (exact_bool.reads.to.pair
      (exact_bool.reads.to.pair (exact_bool.reads.to.pair (exact_bool.reads.to.pair
      exact_bool.reads.to))))))))))))))))).iso ?_).imp ?_ (fun _ _ h => h)
    · rintro ⟨d, e⟩ ⟨x1, x2, x3, x4, x5, x6, x7, x8, x9, x10, x11, x12, x13, x14, x15, x16, x17, x18⟩
        ⟨h1, h2, h3, h4, h5, h6, h7, h8, h9, h10, h11, h12, h13, h14, h15, h16, h17, h18⟩
      obtain ⟨c, p, dp, dl, vs, oa, oi, ni, ot, nt, b1, b2, b3, b4, b5, b6, b7⟩ := d
      simp only at h1 h2 h3 h4 h5 h6 h7 h8 h9 h10 h11 h12 h13 h14 h15 h16 h17 h18
      subst h1 h2 h3 h4 h8 h9 h10 h11 h12 h13 h14 h15 h16 h17 h18
      exact ⟨rfl, rfl, h5, h6, mapR_old h7⟩
    · rintro ⟨d, e⟩ ⟨⟨h1, h2, h3, h4, h5, h6, h7, h8, h9, h10, h11⟩, hr⟩
      refine ⟨⟨h1, hr⟩, h1.1, h2, h3, h4, h5, ⟨?_, ?_, ?_⟩, h8, h9, h10, h11, trivial, trivial, trivial,
        trivial, trivial, trivial, trivial⟩
      · rw [List.length_map]; exact h6.1
      · have := h6.2.1
        simpa [AMap.keys, Function.comp_def] using this
      · intro a ha
        obtain ⟨e', he', rfl⟩ := List.mem_map.1 ha
        exact ⟨(h6.2.2 _ he').1, h7 _ he', (h6.2.2 _ he').2⟩
  obtain ⟨⟨d', e'⟩, h1, h2, h3⟩ := key.unmarshal (a := (d, reader, only)) ⟨h, hr⟩
  simp only at h2 h3
  subst h2
  exact ⟨d', h1, h3⟩

theorem reads_rec (hS : S.Reads fS) : (DkgR.binReconstructCommits S).Reads (RecFits fS) :=
  (exact_bytes.reads.pair (exact_u32.reads.pair (exact_u32.reads.pair ((reads_share hS).pair
    exact_bytes.reads)))).iso fun _ => rfl

/-- C118: a generator of Rabin's DKG. -/
theorem C118_dkg_rabin (hS : S.Reads fS) (hP : P.Reads fP) (d : DkgR.Dkg F G) (h : DkgFitsR fS fP d) :
    ∃ d', (DkgR.binDkg ord S P).unmarshal ((DkgR.binDkg ord S P).marshal d) = some d' ∧ SameDkgR d d' := by
  have key : (DkgR.binDkg ord S P).ReadsTo (DkgFitsR fS fP) SameDkgR := by
    refine ((exact_u32.reads.to.pair (hS.to.pair (hP.to.pair (hP.vec.to.pair (exact_usize.reads.to.pair
      ((readsTo_dealerR ord hS hP).pair (((readsTo_verifierR ord hS hP).map exact_u32.reads ord).pair
      (((reads_pubPoly hP).to.map exact_u32.reads ord).pair
      (((reads_rec hS).vec.to.map exact_u32.reads ord).pair
      (exact_bool.reads.to.map exact_u32.reads ord)))))))))).iso ?_).imp ?_ (fun _ _ h => h)
    · rintro d ⟨x1, x2, x3, x4, x5, x6, x7, x8, x9, x10⟩ ⟨h1, h2, h3, h4, h5, h6, h7, h8, h9, h10⟩
      obtain ⟨i, l, p, ps, t, dl, vs, cs, pr, rc⟩ := d
      simp only at h1 h2 h3 h4 h5 h6 h7 h8 h9 h10
      subst h1 h2 h3 h4 h5
      exact ⟨rfl, h6, h7, h8, h9, h10⟩
    · rintro d ⟨h1, h2, h3, h4, h5, h6, h7, h8, h9, h10⟩
      exact ⟨h1, h2, h3, h4, h5, h6, h7, h8, h9, h10⟩
  exact key.unmarshal h

/-- C101: the partial signatures that the holders of shares exchange. -/
theorem C101_signature_share (hS : S.Exact fS) :
    Wire (Dss.binPartialSig S)
      (fun p => ShareFits fS p.partialShare ∧ W64 p.sessionId.length ∧ W64 p.signature.length)
      (fun p => wShare S.ser p.partialShare ++ (wBytes p.sessionId ++ wBytes p.signature)) := by
  refine wire_of (((exact_share hS).pair (exact_bytes.pair exact_bytes)).iso
    (fun _ => rfl) (fun _ => rfl)) (fun _ => Iff.rfl) ?_
  intro p
  show (binShare S).ser p.partialShare ++ (bytes.ser p.sessionId ++ bytes.ser p.signature) = _
  rw [bytes_ser, bytes_ser]
  rfl

example : (Dss.binPartialSig Ed.binScalar).unmarshal
    ([4, 0, 0, 0, 0, 0, 0, 0] ++ List.replicate 32 7 ++ [1, 0, 0, 0, 0, 0, 0, 0, 5] ++
      [2, 0, 0, 0, 0, 0, 0, 0, 8, 9]) = some ⟨⟨4, List.replicate 32 7⟩, [5], [8, 9]⟩ := by
  have h := (C101_signature_share Ed.exact_scalar).roundtrip (a := ⟨⟨4, List.replicate 32 7⟩, [5], [8, 9]⟩)
    ⟨⟨by show (4 : Nat) < 2 ^ 64; norm_num, rfl⟩, by show (1 : Nat) < 2 ^ 64; norm_num,
      by show (2 : Nat) < 2 ^ 64; norm_num⟩ []
  have hw : (Dss.binPartialSig Ed.binScalar).marshal ⟨⟨4, List.replicate 32 7⟩, [5], [8, 9]⟩ =
      [4, 0, 0, 0, 0, 0, 0, 0] ++ List.replicate 32 7 ++ [1, 0, 0, 0, 0, 0, 0, 0, 5] ++
        [2, 0, 0, 0, 0, 0, 0, 0, 8, 9] := by decide +kernel
  rwa [List.append_nil, hw] at h

/-- C118: a session of distributed signatures, for every form `K` of key shares that reads back. -/
theorem C118_dss {K : Bin (Dss.DistKeyShare F G)} {fK : Dss.DistKeyShare F G → Prop} (hS : S.Reads fS)
    (hP : P.Reads fP) (hK : K.Reads fK) (base : G) (d : Dss.DSS F G) (h : DssFits fS fP fK base d) :
    ∃ d', (Dss.binDSS ord S P K base).unmarshal ((Dss.binDSS ord S P K base).marshal d) = some d' ∧
      SameDss d d' := by
  have key : (Dss.binDSS ord S P K base).ReadsTo (DssFits fS fP fK base) SameDss := by
    refine ((hS.to.pair (hP.to.pair (exact_usize.reads.to.pair (hP.vec.to.pair (exact_usize.reads.to.pair
      (hK.to.pair (hK.to.pair ((reads_pubPoly hP).to.pair ((reads_pubPoly hP).to.pair
      (exact_bytes.reads.to.pair ((reads_share hS).option.vec.to.pair
      ((exact_bool.reads.to.map exact_usize.reads ord).pair (exact_bool.reads.to.pair
      exact_bytes.reads.to))))))))))))).iso ?_).imp ?_ (fun _ _ h => h)
    · rintro d ⟨x1, x2, x3, x4, x5, x6, x7, x8, x9, x10, x11, x12, x13, x14⟩
        ⟨h1, h2, h3, h4, h5, h6, h7, h8, h9, h10, h11, h12, h13, h14⟩
      obtain ⟨s, p, i, ps, t, l, r, m, pa, px, sg, sid⟩ := d
      simp only at h1 h2 h3 h4 h5 h6 h7 h8 h9 h10 h11 h12 h13 h14
      subst h1 h2 h3 h4 h5 h6 h7 h10 h11 h13 h14
      exact ⟨rfl, h12⟩
    · rintro d ⟨h1, h2, h3, h4, h5, h6, h7, h8, h9, h10, h11, h12, h13, h14⟩
      refine ⟨h1, h2, h3, h4, h5, h6, h7, ⟨fun a ha => ?_, h9⟩, ⟨fun a ha => ?_, h10⟩, h11, h12, h13,
        trivial, h14⟩ <;> (cases ha; exact h8)
  exact key.unmarshal h

/-- C118: what the constructor of Pedersen's dealer returns meets the conditions, on every suite whose
hash is shorter than 2^64 bytes. -/
theorem C118_new_dealer_fits [Field F] [AddCommGroup G] [SMul F G] [DecidableEq G] {E : Suite F G}
    (hh : ∀ b, (E.hash b).length < 2 ^ 64) {x secret : F} {pubs : List G} (hn : pubs.length < 2 ^ 64)
    {t : Nat} {draws : List F} {d : VssP.Dealer F G} (h : VssP.newDealer E x secret pubs t draws = .ok d) :
    DealerFitsP (fun _ => True) (fun _ => True) d := by
  obtain ⟨hv, hl, -, -, -, h6, h7, h8, h9, h10, h11, h12, h13⟩ := VssP.newDealer_ok h
  have ht : 2 ≤ t ∧ t < 2 ^ 32 := by
    simp only [VssP.validT, Bool.and_eq_true, decide_eq_true_eq] at hv
    refine ⟨hv.1.1, ?_⟩
    have := Nat.mod_lt t (show 0 < 4294967296 by decide)
    norm_num
    omega
  have hs : W64 d.sessionId.length := by rw [h10]; exact hh _
  have hc : LFits (fun _ : G => True) d.secretCommits := by
    refine ⟨?_, fun _ _ => trivial⟩
    simp only [W64, h9, List.length_map, List.length_cons, List.length_take]
    omega
  have ht' : W64 t := by unfold W64; omega
  refine ⟨trivial, trivial, trivial, hc, ⟨?_, fun _ _ => trivial⟩, ⟨by rw [h6]; exact hn, fun _ _ => trivial⟩,
    by rw [h11]; exact hh _, by rw [h7]; exact ht', hs, ⟨by rw [h12]; simpa [W64] using hn, ?_⟩, ?_⟩
  · simp only [W64, h8, List.length_cons, List.length_take]
    omega
  · intro dl hd
    rw [h12] at hd
    obtain ⟨i, hi, rfl⟩ := List.mem_map.1 hd
    have hi := List.mem_range.1 hi
    refine ⟨hs, ⟨?_, trivial⟩, ht', hc⟩
    show i < 2 ^ 64
    omega
  · rw [h13]
    exact ⟨⟨hn, fun _ _ => trivial⟩, hc, ⟨by simp [W64, VssP.newAggregator], by simp [VssP.newAggregator],
      by simp [VssP.newAggregator]⟩, hs, by simp [OFits, VssP.newAggregator], ht'⟩

/-- C118: a new dealer on edwards25519, saved and loaded, whatever coordinates its points have and
whatever order maps are visited in. -/
theorem C118_edwards {rep : Ed.EdPt → Ed.Pt} (hr : ∀ p, (rep p).ge.Rep p) {E : Suite (ZMod Ed.L) Ed.EdPt}
    (hh : ∀ b, (E.hash b).length < 2 ^ 64) {x secret : ZMod Ed.L} {pubs : List Ed.EdPt}
    (hn : pubs.length < 2 ^ 64) {t : Nat} {draws : List (ZMod Ed.L)} {d : VssP.Dealer (ZMod Ed.L) Ed.EdPt}
    (h : VssP.newDealer E x secret pubs t draws = .ok d) :
    ∃ d', (VssP.binDealer ord Ed.binZ (Ed.binEd rep)).unmarshal
      ((VssP.binDealer ord Ed.binZ (Ed.binEd rep)).marshal d) = some d' ∧ SameDealerP d d' :=
  (C118_vss_pedersen ord Ed.reads_z (Ed.reads_ed hr)).1 d (C118_new_dealer_fits hh hn h)


/-- `C118_edwards`: the dealer with the key 3 deals the secret 5 to three verifiers with the threshold 2, is saved and
loaded. -/
example (sha hash : Bytes → Bytes) (hh : ∀ b, (hash b).length < 2 ^ 64) :
    ∃ (rep : Ed.EdPt → Ed.Pt) (d d' : VssP.Dealer (ZMod Ed.L) Ed.EdPt),
      VssP.newDealer (Ed.edSuite sha hash) 3 5 [Ed.basePt, (2 : ZMod Ed.L) • Ed.basePt, (4 : ZMod Ed.L) • Ed.basePt] 2
        [7] = .ok d ∧
      (VssP.binDealer ord Ed.binZ (Ed.binEd rep)).unmarshal
        ((VssP.binDealer ord Ed.binZ (Ed.binEd rep)).marshal d) = some d' ∧ SameDealerP d d' := by
  obtain ⟨rep, hr⟩ := Ed.exists_rep
  obtain ⟨d', h⟩ := C118_edwards (ord := ord) hr (E := Ed.edSuite sha hash) hh (x := 3) (secret := 5)
    (pubs := [Ed.basePt, (2 : ZMod Ed.L) • Ed.basePt, (4 : ZMod Ed.L) • Ed.basePt]) (by decide) (t := 2) (draws := [7])
    rfl
  exact ⟨rep, _, d', rfl, h⟩

/-! ## Objects that meet the conditions -/

namespace StateExample

def a : VssP.Aggregator UInt8 UInt8 :=
  ⟨[7, 8], [9], [(0, ⟨[1], 0, true, [2, 3]⟩), (1, ⟨[1], 1, false, [2]⟩)], [3], some ⟨[3], ⟨1, 10⟩, 2, [9]⟩, 2,
    false, true⟩

def d : VssP.Dealer UInt8 UInt8 :=
  ⟨5, 7, 6, [1, 2], ⟨[6, 4]⟩, [7, 8], [1], 2, [3], [⟨[3], ⟨0, 10⟩, 2, [9]⟩], a⟩

def v : VssP.Verifier UInt8 UInt8 := ⟨5, 7, 6, 1, [7, 8], [1], a⟩

def aR : VssR.Aggregator UInt8 UInt8 :=
  ⟨[7, 8], [9], [(0, ⟨[1], 0, true, [2, 3]⟩), (1, ⟨[1], 1, false, [2]⟩)], [3],
    some ⟨[3], ⟨0, 10⟩, ⟨0, 11⟩, 2, [9]⟩, 2, false⟩

def dR : VssR.Dealer UInt8 UInt8 :=
  ⟨5, 7, 6, [1], [7, 8], [1], 2, [3], [⟨[3], ⟨0, 10⟩, ⟨0, 11⟩, 2, [9]⟩], aR⟩

def vR : VssR.Verifier UInt8 UInt8 := ⟨5, 7, 6, 1, [7, 8], [1], some aR⟩

def conf : DkgP.Config UInt8 UInt8 := ⟨5, [7, 8], some [9], [7, 8], some ⟨[9, 3], ⟨1, 10⟩, [4]⟩, 2, 2⟩

/-- a generator of Pedersen's DKG with two verifiers and an aggregator of an old node -/
def g : DkgP.Dkg UInt8 UInt8 :=
  ⟨conf, 7, ⟨some 9, [1, 2]⟩, d, [(0, v), (1, v)], [(1, a)], 0, 1, 2, 2, true, true, true, true, true, false,
    false⟩

/-- a generator of Rabin's DKG that waits for a reconstruction -/
def gR : DkgR.Dkg UInt8 UInt8 :=
  ⟨1, 5, 7, [7, 8], 2, dR, [(0, vR), (1, vR)], [(0, ⟨none, [1, 2]⟩)], [(1, [⟨[3], 0, 1, ⟨0, 10⟩, [2]⟩])],
    [(0, true)]⟩

def dss : Dss.DSS UInt8 UInt8 :=
  ⟨5, 7, 1, [7, 8], 2, ⟨⟨1, 10⟩, [9]⟩, ⟨⟨1, 11⟩, [8]⟩, [1, 2, 3], [some ⟨0, 4⟩, none], [(0, true)], false, [3]⟩

abbrev all : UInt8 → Prop := fun _ => True

theorem d_fits : DealerFitsP all all d := by
  simp [all, DealerFitsP, AggFitsP, d, a, LFits, OFits, MFits, W64, W32, DealFits, ShareFits, ResponseFits,
    AMap.keys]

theorem v_fits : VerifierFitsP all all v := by
  simp [all, VerifierFitsP, AggFitsP, v, a, LFits, OFits, MFits, W64, W32, DealFits, ShareFits, ResponseFits,
    AMap.keys]

theorem dR_fits : DealerFitsR all all dR := by
  simp [all, DealerFitsR, AggFitsR, dR, aR, LFits, OFits, MFits, W64, W32, DealFitsR, ShareFits, ResponseFits,
    AMap.keys]

theorem vR_fits : VerifierFitsR all all vR := by
  have h := dR_fits.2.2.2.2.2.2.2.2.2
  refine ⟨trivial, trivial, trivial, ?_, ?_, ?_, fun b hb => ?_⟩
  · simp [vR, W64]
  · simp [vR, LFits, W64]
  · simp [vR, W64]
  · obtain rfl : aR = b := by simpa [vR] using hb
    exact h

theorem conf_fits : ConfigFits all all conf := by
  simp [all, ConfigFits, KeyFitsP, conf, LFits, OFits, W64, ShareFits]

theorem g_fits : DkgFitsP all all (fun _ => 6) g := by
  have hv := v_fits
  have ha := v_fits.2.2.2.2.2.2
  refine ⟨conf_fits, trivial, ?_, d_fits, ?_, ?_, fun _ _ => trivial, ?_⟩
  · simp [PolyFits, g, LFits, OFits, W64]
  · simp [g, MFits, W64, W32, AMap.keys, hv]
  · simpa [g, MFits, W64, W32, AMap.keys] using show AggFitsP all all a from ha
  · simp [g, W64]

theorem gR_fits : DkgFitsR all all gR := by
  have hv := vR_fits
  refine ⟨?_, trivial, trivial, ?_, ?_, dR_fits, ?_, ?_⟩
  · simp [gR, W32]
  · simp [gR, LFits, W64]
  · simp [gR, W64]
  · simp [gR, MFits, W64, W32, AMap.keys, hv]
  · simp [gR, MFits, W64, W32, AMap.keys, PolyFits, LFits, OFits, RecFits, ShareFits]

def fK (k : Dss.DistKeyShare UInt8 UInt8) : Prop := ShareFits all k.share ∧ LFits all k.commits

/-- one form of key shares -/
def binK : Bin (Dss.DistKeyShare UInt8 UInt8) :=
  ((binShare u8).pair u8.vec).iso (fun x => ⟨x.1, x.2⟩) (fun k => (k.share, k.commits))

theorem u8_reads : u8.Reads all := exact_u8.reads

theorem binK_reads : binK.Reads fK := ((reads_share u8_reads).pair u8_reads.vec).iso fun _ => rfl

theorem dss_fits : DssFits all all fK 6 dss := by
  simp [all, DssFits, fK, dss, LFits, OFits, MFits, W64, ShareFits, AMap.keys]

example := C118_poly u8_reads u8_reads

example := (C118_vss_pedersen .rev u8_reads u8_reads).1 d d_fits

example := (C118_vss_pedersen .rev u8_reads u8_reads).2 v v_fits

example := (C118_vss_rabin .rev u8_reads u8_reads).1 dR dR_fits

example := (C118_vss_rabin .rev u8_reads u8_reads).2 vR vR_fits

/-- The reader of the configuration is a byte here. -/
example := C118_config u8_reads u8_reads u8_reads conf (some 4) true conf_fits
  (fun _ _ => trivial)

example := C118_dkg_pedersen .rev u8_reads u8_reads u8_reads (fun _ => 6) g (some 4) false g_fits
  (fun _ _ => trivial)

example := C118_dkg_rabin .rev u8_reads u8_reads gR gR_fits

example := C118_dss .rev u8_reads u8_reads binK_reads 6 dss dss_fits

end StateExample

/-! ## Examples -/

/-- A dealer of Rabin's VSS with two responses, written last entry first. The entries come back in the
other order, everything else as it was. -/
example :
    let r : Bool → VssP.Response := fun b => ⟨[1], 0, b, [2, 3]⟩
    let a : VssR.Aggregator UInt8 UInt8 := ⟨[7, 8], [9], [(0, r true), (1, r false)], [3], none, 2, false⟩
    let a' : VssR.Aggregator UInt8 UInt8 := ⟨[7, 8], [9], [(1, r false), (0, r true)], [3], none, 2, false⟩
    let d : VssR.Aggregator UInt8 UInt8 → VssR.Dealer UInt8 UInt8 := fun a =>
      ⟨5, 7, 6, [1], [7, 8], [1], 2, [3], [⟨[3], ⟨0, 10⟩, ⟨0, 11⟩, 2, [9]⟩], a⟩
    (VssR.binDealer .rev u8 u8).unmarshal ((VssR.binDealer .rev u8 u8).marshal (d a)) = some (d a') ∧
    SameDealerR (d a) (d a') := by
  refine ⟨by decide +kernel, rfl, rfl, by decide, fun k => ?_⟩
  simp only [AMap.get_cons, AMap.get_nil]
  by_cases h0 : k = 0
  · subst h0; exact rfl
  · by_cases h1 : k = 1
    · subst h1; exact rfl
    · simp only [if_neg h0, if_neg h1]; exact trivial

/-- `C118_new_dealer_fits` for a dealer with three verifiers. -/
example : ∃ d, VssP.newDealer Toy.suite 4 7 [6, 10, 4] 2 [5] = .ok d ∧ DealerFitsP (fun _ => True) (fun _ => True) d :=
  ⟨_, rfl, C118_new_dealer_fits (E := Toy.suite) (x := 4) (secret := 7) (pubs := [6, 10, 4]) (t := 2) (draws := [5])
    (fun _ => by simp [Toy.suite, Toy.sha]) (by decide) rfl⟩

end Kyber.Props
