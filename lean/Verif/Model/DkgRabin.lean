/-
Model of `src/share/dkg/rabin/dkg.rs`.

Simplifications, valid for the whole file, next to those of `Model/VssRabin.lean`:
* Indices are below 2^32, so the casts between `usize` and `u32` do nothing.
* A verifier is stored only after its first deal, so it has an aggregator (`stored` in
  `Lemmas/DkgRabin.lean`); where the code would panic on a stored verifier without aggregator the
  model treats the deal as not certified.
* `PubPoly::new` keeps the suite; the model drops it.
-/
import Verif.Model.VssRabin

namespace Kyber.DkgR

open Kyber.Poly
open Kyber.VssP (VssError EncryptedDeal ascii)
open Kyber.VssR

/-- `DKGError`, share/dkg/error.rs, as far as used here. -/
inductive DkgError
  | missingOwnPublicKey
  | distDealIndexOutOfBounds
  | distDealAlreadyProcessed
  | complaintWithoutDeal
  | justificationWithoutDeal
  | dealNotCertified
  | missingCommits
  | secretCommitsOutOfBound
  | secretCommitsFromNonQUAL
  | secretCommitsWrongId
  | missingVerifier
  | missingDeal
  | commitComplaintUnknownIssuer
  | commitComplaintNonQUAL
  | commitComplaintUnknownVerifier
  | commitComplaintNoCommits
  | commitComplaintInvalid
  | commitComplaintUncertifiedDeal
  | commitmentsNotInvalidated
  | reconstructCommitsInvalidVerifierIndex
  | reconstructCommitsInvalidId
  | distributedKeyNotCertified
  | dealsNotFound
  | protocolNotFinished (i : Nat)
  | vss (e : VssError)
  | signature (e : Schnorr.SigError)
  | poly (e : PolyError)
  deriving DecidableEq, Repr

/-- `DistKeyShare`, dkg.rs:60-67. -/
structure DistKeyShare (F G : Type) where
  commits : List G
  share : Share F
  deriving DecidableEq

/-- `Deal`, dkg.rs:117-124. -/
structure Deal (G : Type) where
  index : Nat
  deal : EncryptedDeal G

/-- `Response`, dkg.rs:134-141. -/
structure Response where
  index : Nat
  response : VssP.Response
  deriving DecidableEq, Repr

/-- `Justification`, dkg.rs:155-162. -/
structure Justification (F G : Type) where
  index : Nat
  justification : VssR.Justification F G
  deriving DecidableEq

/-- `SecretCommits`, dkg.rs:176-187. -/
structure SecretCommits (G : Type) where
  index : Nat
  commitments : List G
  sessionId : Bytes
  signature : Bytes
  deriving DecidableEq

/-- `ComplaintCommits`, dkg.rs:224-235. -/
structure ComplaintCommits (F G : Type) where
  index : Nat
  dealerIndex : Nat
  deal : VssR.Deal F G
  signature : Bytes
  deriving DecidableEq

/-- `ReconstructCommits`, dkg.rs:267-279. -/
structure ReconstructCommits (F : Type) where
  sessionId : Bytes
  index : Nat
  dealerIndex : Nat
  share : Share F
  signature : Bytes
  deriving DecidableEq

/-- `SecretCommits::hash`, dkg.rs:210-219: the session id is not hashed. -/
def SecretCommits.hash {F G : Type} (S : Suite F G) (sc : SecretCommits G) : Bytes :=
  S.hash (ascii "secretcommits" ++ u32le sc.index ++ (sc.commitments.map S.encG).flatten)

/-- `ComplaintCommits::hash`, dkg.rs:251-260. -/
def ComplaintCommits.hash {F G : Type} (E : Env F G) (cc : ComplaintCommits F G) : Bytes :=
  E.suite.hash (ascii "commitcomplaint" ++ u32le cc.index ++ u32le cc.dealerIndex ++
    E.codec.enc cc.deal)

/-- `PriShare::hash`, poly.rs:57-62. -/
def shareHash {F G : Type} (S : Suite F G) (s : Share F) : Bytes :=
  S.hash (S.encS s.v ++ u32le s.i)

/-- `ReconstructCommits::hash`, dkg.rs:304-313: the session id is not hashed. -/
def ReconstructCommits.hash {F G : Type} (S : Suite F G) (rc : ReconstructCommits F) : Bytes :=
  S.hash (ascii "reconstructcommits" ++ u32le rc.index ++ u32le rc.dealerIndex ++
    shareHash S rc.share)

/-- `DistKeyGenerator`, dkg.rs:317-339. -/
structure Dkg (F G : Type) where
  index : Nat
  long : F
  pubb : G
  participants : List G
  t : Nat
  dealer : Dealer F G
  verifiers : AMap (Verifier F G)
  commitments : AMap (PubPoly G)
  pendingReconstruct : AMap (List (ReconstructCommits F))
  reconstructed : AMap Bool

variable {F G : Type} [Field F] [AddCommGroup G] [SMul F G] [DecidableEq G]

/-- `new_dist_key_generator`, dkg.rs:426-463; `secret` is the scalar picked, `fDraws`, `gDraws` the
coefficients of the two polynomials. -/
def newDistKeyGenerator (E : Env F G) (longterm : F) (participants : List G) (t : Nat)
    (secret : F) (fDraws gDraws : List F) : Res DkgError (Dkg F G) :=
  let pubb := longterm • E.suite.base
  match participants.findIdx? (fun p => decide (p = pubb)) with
  | none => .err .missingOwnPublicKey
  | some index => do
    let dealer ← (newDealer E longterm secret participants t fDraws gDraws).mapErr .vss
    .ok { index := index, long := longterm, pubb := pubb, participants := participants, t := t,
          dealer := dealer, verifiers := [], commitments := [], pendingReconstruct := [],
          reconstructed := [] }

omit [Field F] [AddCommGroup G] [SMul F G] [DecidableEq G] in
/-- `deal_certified` of a stored verifier, vss.rs:991 through `Deref`, vss.rs:599-605. -/
def certifiedV (v : Verifier F G) : Bool :=
  match v.aggregator with
  | some a => a.dealCertified
  | none => false

omit [Field F] [AddCommGroup G] [SMul F G] [DecidableEq G] in
/-- `session_id` of a stored verifier, vss.rs:753-755 through `Deref`. -/
def sessionIdV (v : Verifier F G) : Bytes :=
  match v.aggregator with
  | some a => a.sid
  | none => []

namespace Dkg

/-- `process_deal`, dkg.rs:515-541; `k` is the nonce of the response's signature. Nothing is stored
when the VSS returns an error. -/
def processDeal (E : Env F G) (d : Dkg F G) (dd : Deal G) (k : F) :
    Dkg F G × Res DkgError Response :=
  match d.participants[dd.index]? with
  | none => (d, .err .distDealIndexOutOfBounds)
  | some pubb =>
    if d.verifiers.contains dd.index then (d, .err .distDealAlreadyProcessed) else
    match newVerifier E.suite d.long pubb d.participants with
    | .err e => (d, .err (.vss e))
    | .panic => (d, .panic)
    | .ok ver =>
      match ver.processEncryptedDeal E dd.deal k with
      | (_, .err e) => (d, .err (.vss e))
      | (_, .panic) => (d, .panic)
      | (ver, .ok resp) =>
        let ver := ver.onAggregator (fun a => a.unsafeSetResponseDkg dd.index true)
        ({ d with verifiers := d.verifiers.insert dd.index ver }, .ok ⟨dd.index, resp⟩)

/-- The loop of `deals`, dkg.rs:484-507. -/
def dealsLoop (E : Env F G) (encs : List (EncryptedDeal G)) (vk : F) :
    List Nat → Dkg F G → AMap (Deal G) → Dkg F G × Res DkgError (AMap (Deal G))
  | [], d, dd => (d, .ok dd)
  | i :: l, d, dd =>
    match encs[i]? with
    | none => (d, .panic)
    | some e =>
      if i = d.index then
        if d.verifiers.contains d.index then dealsLoop E encs vk l d dd
        else
          match d.processDeal E ⟨d.index, e⟩ vk with
          | (d', .ok r) =>
            if r.response.status = false then (d', .panic)
            else dealsLoop E encs vk l
              { d' with dealer := { d'.dealer with
                  aggregator := d'.dealer.aggregator.unsafeSetResponseDkg d'.index true } } dd
          | (d', .err e) => (d', .err e)
          | (d', .panic) => (d', .panic)
      else dealsLoop E encs vk l d (dd.insert i ⟨d.index, e⟩)

/-- `deals`, dkg.rs:481-509, with `encrypted_deals` of the VSS dealer, vss.rs:418-427. The
randomness: `dh i`, `k i` for the encryption of deal `i`, `vk` for the response to the own deal. -/
def deals (E : Env F G) (d : Dkg F G) (dh k : Nat → F) (vk : F) :
    Dkg F G × Res DkgError (AMap (Deal G)) :=
  match (List.range d.dealer.verifiers.length).mapM
      (fun i => d.dealer.encryptedDeal E i (dh i) (k i)) with
  | .err e => (d, .err (.vss e))
  | .panic => (d, .panic)
  | .ok encs => dealsLoop E encs vk (List.range d.participants.length) d []

/-- `process_response`, dkg.rs:548-575; `k` is the nonce of the justification's signature. -/
def processResponse (E : Env F G) (d : Dkg F G) (r : Response) (k : F) :
    Dkg F G × Res DkgError (Option (Justification F G)) :=
  match d.verifiers.get r.index with
  | none => (d, .err .complaintWithoutDeal)
  | some v =>
    match v.processResponse E.suite r.response with
    | (v, .err e) => ({ d with verifiers := d.verifiers.insert r.index v }, .err (.vss e))
    | (v, .panic) => ({ d with verifiers := d.verifiers.insert r.index v }, .panic)
    | (v, .ok ()) =>
      let d := { d with verifiers := d.verifiers.insert r.index v }
      if r.index ≠ d.index then (d, .ok none)
      else
        match d.dealer.processResponse E r.response k with
        | (dl, .err e) => ({ d with dealer := dl }, .err (.vss e))
        | (dl, .panic) => ({ d with dealer := dl }, .panic)
        | (dl, .ok none) => ({ d with dealer := dl }, .ok none)
        | (dl, .ok (some j)) =>
          let (v, res) := v.processJustification E j
          let d := { d with dealer := dl, verifiers := d.verifiers.insert r.index v }
          match res with
          | .err e => (d, .err (.vss e))
          | .panic => (d, .panic)
          | .ok () => (d, .ok (some ⟨d.index, j⟩))

/-- `process_justification`, dkg.rs:579-589. -/
def processJustification (E : Env F G) (d : Dkg F G) (j : Justification F G) :
    Dkg F G × Res DkgError Unit :=
  match d.verifiers.get j.index with
  | none => (d, .err .justificationWithoutDeal)
  | some v =>
    let (v, res) := v.processJustification E j.justification
    ({ d with verifiers := d.verifiers.insert j.index v }, res.mapErr .vss)

omit [Field F] [AddCommGroup G] [SMul F G] [DecidableEq G] in
/-- `set_timeout`, dkg.rs:593-597: the dealer is not told. -/
def setTimeout (d : Dkg F G) : Dkg F G :=
  { d with verifiers := d.verifiers.map (fun e => (e.1, e.2.setTimeout)) }

omit [Field F] [AddCommGroup G] [SMul F G] [DecidableEq G] in
/-- `qual`, dkg.rs:612-619, with `qual_iter`, dkg.rs:634-643. -/
def qual (ord : MapOrder) (d : Dkg F G) : List Nat :=
  (ord.run d.verifiers).filterMap (fun e => if certifiedV e.2 then some e.1 else none)

omit [Field F] [AddCommGroup G] [SMul F G] [DecidableEq G] in
/-- `certified`, dkg.rs:602-604. -/
def certified (ord : MapOrder) (d : Dkg F G) : Bool := decide (d.t ≤ (d.qual ord).length)

omit [Field F] [AddCommGroup G] [SMul F G] [DecidableEq G] in
/-- `is_in_qual`, dkg.rs:621-632: stops at the first hit, which does not change the answer. -/
def isInQual (ord : MapOrder) (d : Dkg F G) (idx : Nat) : Bool :=
  (ord.run d.verifiers).any (fun e => certifiedV e.2 && decide (e.1 = idx))

omit [AddCommGroup G] [DecidableEq G] in
/-- `secret_commits`, dkg.rs:651-681; `k` is the signature nonce. -/
def secretCommits (S : Suite F G) (d : Dkg F G) (k : F) :
    Dkg F G × Res DkgError (SecretCommits G) :=
  if d.dealer.aggregator.dealCertified = false then (d, .err .dealNotCertified) else
  match d.dealer.commits with
  | none => (d, .err .missingCommits)
  | some cs =>
    let sc : SecretCommits G := ⟨d.index, cs, d.dealer.sessionId, []⟩
    let sc := { sc with signature := Schnorr.sign S k d.long (sc.hash S) }
    ({ d with commitments := d.commitments.insert d.index ⟨some S.base, cs⟩ }, .ok sc)

/-- `process_secret_commits`, dkg.rs:688-738; `k` is the nonce of the complaint's signature. The
number of commitments is not checked; `check` panics if there are none. -/
def processSecretCommits (E : Env F G) (ord : MapOrder) (d : Dkg F G) (sc : SecretCommits G) (k : F) :
    Dkg F G × Res DkgError (Option (ComplaintCommits F G)) :=
  match d.participants[sc.index]? with
  | none => (d, .err .secretCommitsOutOfBound)
  | some pubb =>
    if d.isInQual ord sc.index = false then (d, .err .secretCommitsFromNonQUAL) else
    match d.verifiers.get sc.index with
    | none => (d, .err .missingVerifier)
    | some v =>
      if sessionIdV v ≠ sc.sessionId then (d, .err .secretCommitsWrongId) else
      match Schnorr.verify E.suite pubb (sc.hash E.suite) sc.signature with
      | .err e => (d, .err (.signature e))
      | .panic => (d, .panic)
      | .ok () =>
        match v.deal with
        | none => (d, .err .missingDeal)
        | some deal =>
          let poly : PubPoly G := ⟨some E.suite.base, sc.commitments⟩
          match poly.check E.suite.base deal.secShare with
          | .err e => (d, .err (.poly e))
          | .panic => (d, .panic)
          | .ok false =>
            let cc : ComplaintCommits F G := ⟨d.index, sc.index, deal, []⟩
            (d, .ok (some { cc with signature := Schnorr.sign E.suite k d.long (cc.hash E) }))
          | .ok true => ({ d with commitments := d.commitments.insert sc.index poly }, .ok none)

/-- `process_complaint_commits`, dkg.rs:744-808; `k` is the nonce of the signature. The deal in the
complaint is checked against the commitments in that same deal; its index is not compared with
`cc.index`. -/
def processComplaintCommits (E : Env F G) (ord : MapOrder) (d : Dkg F G) (cc : ComplaintCommits F G)
    (k : F) : Dkg F G × Res DkgError (ReconstructCommits F) :=
  match d.participants[cc.index]? with
  | none => (d, .err .commitComplaintUnknownIssuer)
  | some issuer =>
    if d.isInQual ord cc.index = false then (d, .err .commitComplaintNonQUAL) else
    match Schnorr.verify E.suite issuer (cc.hash E) cc.signature with
    | .err e => (d, .err (.signature e))
    | .panic => (d, .panic)
    | .ok () =>
      match d.verifiers.get cc.dealerIndex with
      | none => (d, .err .commitComplaintUnknownVerifier)
      | some v =>
        match v.aggregator with
        | none => (d, .panic)
        | some a =>
          let v := { v with aggregator := some (a.verifyDeal E cc.deal false).1 }
          let d := { d with verifiers := d.verifiers.insert cc.dealerIndex v }
          match (a.verifyDeal E cc.deal false).2 with
          | .err e => (d, .err (.vss e))
          | .panic => (d, .panic)
          | .ok () =>
            match d.commitments.get cc.dealerIndex with
            | none => (d, .err .commitComplaintNoCommits)
            | some secretCommits =>
              match secretCommits.check E.suite.base cc.deal.secShare with
              | .err e => (d, .err (.poly e))
              | .panic => (d, .panic)
              | .ok true => (d, .err .commitComplaintInvalid)
              | .ok false =>
                match v.deal with
                | none => (d, .err .commitComplaintUncertifiedDeal)
                | some deal =>
                  let rc : ReconstructCommits F :=
                    ⟨cc.deal.sessionId, d.index, cc.dealerIndex, deal.secShare, []⟩
                  let rc := { rc with signature := Schnorr.sign E.suite k d.long (rc.hash E.suite) }
                  ({ d with
                      commitments := d.commitments.remove cc.dealerIndex
                      pendingReconstruct := d.pendingReconstruct.insert cc.dealerIndex
                        ((d.pendingReconstruct.get cc.dealerIndex).getD [] ++ [rc]) },
                    .ok rc)

omit [Field F] [AddCommGroup G] [SMul F G] [DecidableEq G] in
/-- The loop over the pending messages, dkg.rs:839-846: `some (.ok ())` and `some (.err _)` are the
early returns. -/
def scanPending (rc : ReconstructCommits F) : List (ReconstructCommits F) → Option (Res DkgError Unit)
  | [] => none
  | r :: l =>
    if r.index = rc.index then some (.ok ())
    else if r.sessionId ≠ rc.sessionId then some (.err .reconstructCommitsInvalidId)
    else scanPending rc l

/-- `process_reconstruct_commits`, dkg.rs:814-872. The share is not checked against anything, nor is
its index compared with `rc.index`. -/
def processReconstructCommits (E : Env F G) (ord : MapOrder) (d : Dkg F G)
    (rc : ReconstructCommits F) : Dkg F G × Res DkgError Unit :=
  if d.reconstructed.contains rc.dealerIndex then (d, .ok ())
  else if d.commitments.contains rc.dealerIndex then (d, .err .commitmentsNotInvalidated)
  else match d.participants[rc.index]? with
  | none => (d, .err .reconstructCommitsInvalidVerifierIndex)
  | some pubb =>
    match Schnorr.verify E.suite pubb (rc.hash E.suite) rc.signature with
    | .err e => (d, .err (.signature e))
    | .panic => (d, .panic)
    | .ok () =>
      let arr := (d.pendingReconstruct.get rc.dealerIndex).getD []
      match scanPending rc arr with
      | some r => ({ d with pendingReconstruct := d.pendingReconstruct.insert rc.dealerIndex arr }, r)
      | none =>
        let arr := arr ++ [rc]
        let d := { d with pendingReconstruct := d.pendingReconstruct.insert rc.dealerIndex arr }
        if d.t ≤ arr.length then
          match recoverPriPoly ord (arr.map (fun r => some r.share)) d.t with
          | .err e => (d, .err (.poly e))
          | .panic => (d, .panic)
          | .ok pri =>
            ({ d with
                commitments := d.commitments.insert rc.dealerIndex
                  (pri.commit E.suite.base (some E.suite.base))
                reconstructed := d.reconstructed.insert rc.dealerIndex true
                pendingReconstruct := d.pendingReconstruct.remove rc.dealerIndex }, .ok ())
        else (d, .ok ())

omit [Field F] [AddCommGroup G] [SMul F G] [DecidableEq G] in
/-- The iteration of `finished`, dkg.rs:878-889, over the verifiers in the order visited: the number
of qualified dealers visited and whether all had commitments. -/
def finishedLoop (commitments : AMap (PubPoly G)) : List (Nat × Verifier F G) → Nat → Nat × Bool
  | [], nb => (nb, true)
  | (i, v) :: l, nb =>
    if certifiedV v = false then finishedLoop commitments l nb
    else if commitments.contains i then finishedLoop commitments l (nb + 1)
    else (nb + 1, false)

omit [Field F] [AddCommGroup G] [SMul F G] [DecidableEq G] in
/-- `finished`, dkg.rs:877-891. -/
def finished (ord : MapOrder) (d : Dkg F G) : Bool :=
  let r := finishedLoop d.commitments (ord.run d.verifiers) 0
  decide (d.t ≤ r.1) && r.2

omit [SMul F G] [DecidableEq G] in
/-- The iteration of `dist_key_share`, dkg.rs:911-942, over the verifiers in the order visited. -/
def keyLoop (commitments : AMap (PubPoly G)) : List (Nat × Verifier F G) → F → Option (PubPoly G) →
    Res DkgError (F × Option (PubPoly G))
  | [], sh, p => .ok (sh, p)
  | (i, v) :: l, sh, p =>
    if certifiedV v = false then keyLoop commitments l sh p
    else match v.deal with
      | none => .err .dealsNotFound
      | some deal =>
        match commitments.get i with
        | none => .err (.protocolNotFinished i)
        | some poly =>
          match p with
          | none => keyLoop commitments l (sh + deal.secShare.v) (some poly)
          | some q => match q.add poly with
            | .ok r => keyLoop commitments l (sh + deal.secShare.v) (some r)
            | .err e => .err (.poly e)
            | .panic => .panic

omit [SMul F G] [DecidableEq G] in
/-- `dist_key_share`, dkg.rs:900-957. -/
def distKeyShare (ord : MapOrder) (d : Dkg F G) : Res DkgError (DistKeyShare F G) :=
  if d.certified ord = false then .err .distributedKeyNotCertified
  else do
    let r ← keyLoop d.commitments (ord.run d.verifiers) 0 none
    let p ← Res.unwrap r.2
    .ok { commits := p.commits, share := ⟨d.index, r.1⟩ }

end Dkg

end Kyber.DkgR
