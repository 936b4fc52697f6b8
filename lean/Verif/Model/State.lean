/-
The binary form of the objects that hold state, `encoding::marshal_binary` and
`encoding::unmarshal_binary` (`src/encoding/encodings.rs:49-59`) of dealers, verifiers, aggregators,
polynomials, configurations, generators and distributed-signature sessions.

As in `Verif/Model/Bincode.lean` the format is bincode's documented one. In addition: an `Option` is
one byte, 0 or 1, followed by the value if there is one; a `HashMap` is written like a vector of pairs
in the order in which the map is visited, which is unspecified (`MapOrder`), and is read by inserting
one pair after the other.

Simplified: the suite, a field of most of these structures, has no content (`SuiteEd25519` holds a
`Curve {}`, edwards25519/suite.rs:26-31, curve.rs:21-22) and writes nothing. The fields that the model
keeps in one place only are written wherever the code has them and read from one of these places: the
`dealer` of an aggregator, `long_poly` and `random_poly` of a `DSS`, `long` of a generator.
-/
import Verif.Model.Bincode
import Verif.Model.Dss

namespace Kyber

open Kyber.Poly (Share PriPoly PubPoly)

namespace Bin

variable {α β : Type}

/-- `Option<T>`. -/
def option (A : Bin α) : Bin (Option α) where
  ser
    | none => [0]
    | some a => 1 :: A.ser a
  de
    | [] => none
    | x :: r => if x = 0 then some (none, r) else if x = 1 then (A.de r).map (fun y => (some y.1, y.2))
      else none

/-- `HashMap<K, V>` with keys in the form `K`, written in the order `ord`. -/
def map (ord : MapOrder) (K : Bin Nat) (A : Bin α) : Bin (AMap α) where
  ser m := (vec (K.pair A)).ser (ord.run m)
  de b := ((vec (K.pair A)).de b).map (fun x => (x.1.foldl (fun m e => m.insert e.1 e.2) [], x.2))

/-- As `iso`, for forms of which some have no counterpart in the model. -/
def piso (A : Bin α) (f : α → Option β) (g : β → α) : Bin β where
  ser x := A.ser (g x)
  de b := (A.de b).bind (fun x => (f x.1).map (fun y => (y, x.2)))

end Bin

open Bin

variable {F G : Type}

/-- `PriPoly`, poly.rs:66-72. -/
def binPriPoly (S : Bin F) : Bin (PriPoly F) := (vec S).iso (fun c => ⟨c⟩) (fun p => p.coeffs)

/-- `PubPoly`, poly.rs:398-406. -/
def binPubPoly (P : Bin G) : Bin (PubPoly G) :=
  ((option P).pair (vec P)).iso (fun x => ⟨x.1, x.2⟩) (fun p => (p.b, p.commits))

namespace VssP

/-- `Aggregator`, pedersen/vss.rs:766-779, with the key of its dealer. -/
def binAggregator (ord : MapOrder) (S : Bin F) (P : Bin G) : Bin (G × Aggregator F G) :=
  (P.pair ((vec P).pair ((vec P).pair ((map ord u32 binResponse).pair (bytes.pair
    ((option (binDeal S P)).pair (usize.pair (bool.pair bool)))))))).iso
    (fun x => (x.1, ⟨x.2.1, x.2.2.1, x.2.2.2.1, x.2.2.2.2.1, x.2.2.2.2.2.1, x.2.2.2.2.2.2.1,
      x.2.2.2.2.2.2.2.1, x.2.2.2.2.2.2.2.2⟩))
    (fun a => (a.1, a.2.verifiers, a.2.commits, a.2.responses, a.2.sid, a.2.deal, a.2.t, a.2.badDealer,
      a.2.timeout))

/-- `Dealer`, pedersen/vss.rs:29-48. -/
def binDealer (ord : MapOrder) (S : Bin F) (P : Bin G) : Bin (Dealer F G) :=
  (S.pair (P.pair (S.pair ((vec P).pair ((binPriPoly S).pair ((vec P).pair (bytes.pair (usize.pair
    (bytes.pair ((vec (binDeal S P)).pair (binAggregator ord S P))))))))))).iso
    (fun x => ⟨x.1, x.2.1, x.2.2.1, x.2.2.2.1, x.2.2.2.2.1, x.2.2.2.2.2.1, x.2.2.2.2.2.2.1,
      x.2.2.2.2.2.2.2.1, x.2.2.2.2.2.2.2.2.1, x.2.2.2.2.2.2.2.2.2.1, x.2.2.2.2.2.2.2.2.2.2.2⟩)
    (fun d => (d.long, d.pubb, d.secret, d.secretCommits, d.secretPoly, d.verifiers, d.hkdfContext, d.t,
      d.sessionId, d.deals, (d.pubb, d.aggregator)))

/-- `Verifier`, pedersen/vss.rs:473-483. The aggregator is always `Some`; a form without one is refused
by the model. -/
def binVerifier (ord : MapOrder) (S : Bin F) (P : Bin G) : Bin (Verifier F G) :=
  (S.pair (P.pair (P.pair (usize.pair ((vec P).pair (bytes.pair (option (binAggregator ord S P)))))))).piso
    (fun x => x.2.2.2.2.2.2.map (fun a =>
      ⟨x.1, x.2.1, x.2.2.1, x.2.2.2.1, x.2.2.2.2.1, x.2.2.2.2.2.1, a.2⟩))
    (fun v => (v.longterm, v.pubb, v.dealer, v.index, v.verifiers, v.hkdfContext,
      some (v.dealer, v.aggregator)))

end VssP

namespace VssR

open VssP (binResponse)

/-- `Aggregator`, rabin/vss.rs:769-781, with the key of its dealer. -/
def binAggregator (ord : MapOrder) (S : Bin F) (P : Bin G) : Bin (G × Aggregator F G) :=
  (P.pair ((vec P).pair ((vec P).pair ((map ord u32 binResponse).pair (bytes.pair
    ((option (binDeal S P)).pair (usize.pair bool))))))).iso
    (fun x => (x.1, ⟨x.2.1, x.2.2.1, x.2.2.2.1, x.2.2.2.2.1, x.2.2.2.2.2.1, x.2.2.2.2.2.2.1,
      x.2.2.2.2.2.2.2⟩))
    (fun a => (a.1, a.2.verifiers, a.2.commits, a.2.responses, a.2.sid, a.2.deal, a.2.t, a.2.badDealer))

/-- `Dealer`, rabin/vss.rs:52-70. -/
def binDealer (ord : MapOrder) (S : Bin F) (P : Bin G) : Bin (Dealer F G) :=
  (S.pair (P.pair (S.pair ((vec P).pair ((vec P).pair (bytes.pair (usize.pair
    (bytes.pair ((vec (binDeal S P)).pair (binAggregator ord S P)))))))))).iso
    (fun x => ⟨x.1, x.2.1, x.2.2.1, x.2.2.2.1, x.2.2.2.2.1, x.2.2.2.2.2.1, x.2.2.2.2.2.2.1,
      x.2.2.2.2.2.2.2.1, x.2.2.2.2.2.2.2.2.1, x.2.2.2.2.2.2.2.2.2.2⟩)
    (fun d => (d.long, d.pubb, d.secret, d.secretCommits, d.verifiers, d.hkdfContext, d.t,
      d.sessionId, d.deals, (d.pubb, d.aggregator)))

/-- `Verifier`, rabin/vss.rs:505-515. -/
def binVerifier (ord : MapOrder) (S : Bin F) (P : Bin G) : Bin (Verifier F G) :=
  (S.pair (P.pair (P.pair (usize.pair ((vec P).pair (bytes.pair (option (binAggregator ord S P)))))))).iso
    (fun x => ⟨x.1, x.2.1, x.2.2.1, x.2.2.2.1, x.2.2.2.2.1, x.2.2.2.2.2.1, x.2.2.2.2.2.2.map Prod.snd⟩)
    (fun v => (v.longterm, v.pubb, v.dealer, v.index, v.verifiers, v.hkdfContext,
      v.aggregator.map (fun a => (v.dealer, a))))

end VssR

namespace DkgP

/-- `Config`, pedersen/dkg.rs:41-98, with its `reader` (any type that can be written) and
`user_reader_only`. -/
def binConfig {ρ : Type} (S : Bin F) (P : Bin G) (R : Bin ρ) : Bin (Config F G × Option ρ × Bool) :=
  (S.pair ((vec P).pair ((option (vec P)).pair ((vec P).pair ((option (binDistKeyShare S P)).pair
    (usize.pair (usize.pair ((option R).pair bool)))))))).iso
    (fun x => (⟨x.1, x.2.1, x.2.2.1, x.2.2.2.1, x.2.2.2.2.1, x.2.2.2.2.2.1, x.2.2.2.2.2.2.1⟩,
      x.2.2.2.2.2.2.2))
    (fun c => (c.1.longterm, c.1.oldNodes, c.1.publicCoeffs, c.1.newNodes, c.1.share, c.1.threshold,
      c.1.oldThreshold, c.2))

/-- `DistKeyGenerator`, pedersen/dkg.rs:170-206, with the reader of its configuration; `od i` is the key
of dealer `i` in `old_aggregators`. -/
def binDkg {ρ : Type} (ord : MapOrder) (S : Bin F) (P : Bin G) (R : Bin ρ) (od : Nat → G) :
    Bin (Dkg F G × Option ρ × Bool) :=
  ((binConfig S P R).pair (S.pair (P.pair ((binPubPoly P).pair ((VssP.binDealer ord S P).pair
    ((map ord u32 (VssP.binVerifier ord S P)).pair ((map ord u32 (VssP.binAggregator ord S P)).pair
    (usize.pair (usize.pair (usize.pair (usize.pair (bool.pair (bool.pair (bool.pair (bool.pair
    (bool.pair (bool.pair bool))))))))))))))))).iso
    (fun (c, _, p, dp, dl, vs, oa, oi, ni, ot, nt, b1, b2, b3, b4, b5, b6, b7) =>
      (⟨c.1, p, dp, dl, vs, oa.map (fun e => (e.1, e.2.2)), oi, ni, ot, nt, b1, b2, b3, b4, b5, b6, b7⟩,
        c.2))
    (fun d => ((d.1.c, d.2), d.1.c.longterm, d.1.pubb, d.1.dpub, d.1.dealer, d.1.verifiers,
      d.1.oldAggregators.map (fun e => (e.1, (od e.1, e.2))), d.1.oidx, d.1.nidx, d.1.oldT, d.1.newT,
      d.1.isResharing, d.1.canIssue, d.1.canReceive, d.1.newPresent, d.1.oldPresent, d.1.processed,
      d.1.timeout))

end DkgP

namespace DkgR

/-- `DistKeyGenerator`, rabin/dkg.rs:315-339. -/
def binDkg (ord : MapOrder) (S : Bin F) (P : Bin G) : Bin (Dkg F G) :=
  (u32.pair (S.pair (P.pair ((vec P).pair (usize.pair ((VssR.binDealer ord S P).pair
    ((map ord u32 (VssR.binVerifier ord S P)).pair ((map ord u32 (binPubPoly P)).pair
    ((map ord u32 (vec (binReconstructCommits S))).pair (map ord u32 bool)))))))))).iso
    (fun (i, l, p, ps, t, dl, vs, cs, pr, rc) => ⟨i, l, p, ps, t, dl, vs, cs, pr, rc⟩)
    (fun d => (d.index, d.long, d.pubb, d.participants, d.t, d.dealer, d.verifiers, d.commitments,
      d.pendingReconstruct, d.reconstructed))

end DkgR

namespace Dss

/-- `DSS`, dss_sig.rs:44-61, for a key share in the form `K`; the public polynomials are those of the two
key shares, with base point `base`. -/
def binDSS (ord : MapOrder) (S : Bin F) (P : Bin G) (K : Bin (DistKeyShare F G)) (base : G) :
    Bin (DSS F G) :=
  (S.pair (P.pair (usize.pair ((vec P).pair (usize.pair (K.pair (K.pair ((binPubPoly P).pair
    ((binPubPoly P).pair (bytes.pair ((vec (option (binShare S))).pair ((map ord usize bool).pair
    (bool.pair bytes))))))))))))).iso
    (fun (s, p, i, ps, t, l, r, _, _, m, pa, px, sg, sid) => ⟨s, p, i, ps, t, l, r, m, pa, px, sg, sid⟩)
    (fun d => (d.secret, d.pub, d.index, d.participants, d.t, d.long, d.random,
      ⟨some base, d.long.commits⟩, ⟨some base, d.random.commits⟩, d.msg, d.partials, d.partialsIdx,
      d.signed, d.sessionId))

/-- `PartialSig`, dss_sig.rs:140-147. -/
def binPartialSig (S : Bin F) : Bin (PartialSig F) :=
  ((binShare S).pair (bytes.pair bytes)).iso (fun x => ⟨x.1, x.2.1, x.2.2⟩)
    (fun p => (p.partialShare, p.sessionId, p.signature))

end Dss

end Kyber
