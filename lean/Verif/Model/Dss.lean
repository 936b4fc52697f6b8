/-
Model of `src/sign/dss/dss_sig.rs`.
-/
import Verif.Model.Poly
import Verif.Model.Schnorr

namespace Kyber.Dss

open Kyber.Poly Kyber.Schnorr

/-- `DSSError`, dss_sig.rs:361-381. -/
inductive DssError
  | signature (e : SigError)
  | publicKeyNotInParticipants
  | invalidIndex
  | notEnoughPartials
  | recoverSecret (e : PolyError)
  | invalidSessionId
  | partialAlreadyReceived
  | invalidPartialSignature
  deriving DecidableEq, Repr

/-- The `DistKeyShare` trait (share/dkg): private share and public commitments. -/
structure DistKeyShare (F G : Type) where
  share : Share F
  commits : List G

/-- `PartialSig`, dss_sig.rs:139-144. -/
structure PartialSig (F : Type) where
  partialShare : Share F
  sessionId : Bytes
  signature : Bytes

/-- `DSS`, dss_sig.rs:41-61. `long_poly`, `random_poly` are `PubPoly`s over the commitments with
the standard base point; they are rebuilt from `long`, `random` where they are used. -/
structure DSS (F G : Type) where
  secret : F
  pub : G
  index : Nat
  participants : List G
  t : Nat
  long : DistKeyShare F G
  random : DistKeyShare F G
  msg : Bytes
  partials : List (Option (Share F))
  partialsIdx : AMap Bool
  signed : Bool
  sessionId : Bytes

variable {F G : Type} [Field F]

omit [Field F] in
/-- `PriShare::hash`, poly.rs:57-63. -/
def shareHash (S : Suite F G) (s : Share F) : Bytes := S.hash (S.encS s.v ++ u32le s.i)

omit [Field F] in
/-- `PartialSig::hash`, dss_sig.rs:149-160. -/
def partialHash (S : Suite F G) (s : Share F) (sid : Bytes) : Bytes :=
  S.hash (shareHash S s ++ sid)

omit [Field F] in
/-- `session_id`, dss_sig.rs:342-359. -/
def sessionId (S : Suite F G) (a b : DistKeyShare F G) : Bytes :=
  S.hash ((a.commits.map S.encG).flatten ++ (b.commits.map S.encG).flatten)

/-- `new_dss`, dss_sig.rs:168-208. -/
def newDss [SMul F G] [DecidableEq G] (S : Suite F G) (secret : F) (participants : List G)
    (long random : DistKeyShare F G) (msg : Bytes) (t : Nat) : Res DssError (DSS F G) :=
  let pub := secret • S.base
  match participants.findIdx? (fun p => decide (p = pub)) with
  | none => .err .publicKeyNotInParticipants
  | some i => .ok {
      secret := secret, pub := pub, index := i, participants := participants, t := t
      long := long, random := random, msg := msg, partials := [], partialsIdx := []
      signed := false, sessionId := sessionId S long random }

omit [Field F] in
/-- `hash_sig`, dss_sig.rs:312-326: `H(R || A || msg)`; `commitments()[0]` panics when empty. -/
def hashSig (S : Suite F G) (d : DSS F G) : Res DssError F := do
  let r ← Res.unwrap d.random.commits.head?
  let a ← Res.unwrap d.long.commits.head?
  .ok (S.setBytes (S.sha512 (S.encG r ++ S.encG a ++ d.msg)))

/-- `partial_sig`, dss_sig.rs:215-237; `k` is the nonce picked by `schnorr::sign`. -/
def partialSig [SMul F G] (S : Suite F G) (k : F) (d : DSS F G) :
    Res DssError (PartialSig F × DSS F G) := do
  let h ← hashSig S d
  let sh : Share F := ⟨d.index, h * d.long.share.v + d.random.share.v⟩
  let ps : PartialSig F :=
    ⟨sh, d.sessionId, sign S k d.secret (partialHash S sh d.sessionId)⟩
  if d.signed then .ok (ps, d)
  else .ok (ps, { d with
    partialsIdx := d.partialsIdx.insert d.index true
    partials := d.partials ++ [some sh]
    signed := true })

/-- `process_partial_sig`, dss_sig.rs:244-277. -/
def processPartialSig [Add G] [Zero G] [SMul F G] [DecidableEq G] (S : Suite F G) (d : DSS F G)
    (ps : PartialSig F) : Res DssError (DSS F G) := do
  let pub ← Res.ofOption .invalidIndex d.participants[ps.partialShare.i]?
  Res.mapErr DssError.signature
    (verify S pub (partialHash S ps.partialShare ps.sessionId) ps.signature)
  if ps.sessionId ≠ d.sessionId then .err .invalidSessionId else
  if d.partialsIdx.contains ps.partialShare.i = true then .err .partialAlreadyReceived else
  let h ← hashSig S d
  let rnd ← Res.mapErr DssError.recoverSecret
    ((⟨some S.base, d.random.commits⟩ : PubPoly G).eval F ps.partialShare.i)
  let lng ← Res.mapErr DssError.recoverSecret
    ((⟨some S.base, d.long.commits⟩ : PubPoly G).eval F ps.partialShare.i)
  if ps.partialShare.v • S.base ≠ rnd.v + h • lng.v then .err .invalidPartialSignature else
  .ok { d with
    partialsIdx := d.partialsIdx.insert ps.partialShare.i true
    partials := d.partials ++ [some ps.partialShare] }

omit [Field F] in
/-- `enough_partial_sig`, dss_sig.rs:282-284. -/
def enoughPartialSig (d : DSS F G) : Bool := decide (d.t ≤ d.partials.length)

/-- `signature`, dss_sig.rs:290-310. -/
def signature (S : Suite F G) (ord : MapOrder) (d : DSS F G) : Res DssError Bytes := do
  if enoughPartialSig d = false then .err .notEnoughPartials else
  let gamma ← Res.mapErr DssError.recoverSecret (recoverSecret ord d.partials d.t)
  let r ← Res.unwrap d.random.commits.head?
  .ok (S.encG r ++ S.encS gamma)

end Kyber.Dss
