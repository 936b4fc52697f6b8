/-
Model of `src/share/dkg/pedersen/dkg.rs` and `src/share/dkg/pedersen/structs.rs`.

Simplifications, valid for the whole file, next to those of `Model/VssPedersen.lean`:
* `Config::reader`, `Config::user_reader_only` only choose the source of randomness of the secret
  coefficient, which is an argument here.
* Indices are below 2^32, so the casts between `usize` and `u32` do nothing.
* bincode serialisation of a distributed deal is a parameter (`DkgEnv.encDist`).
* `format!("{pubb}")` prints the encoding of a point, so comparing the strings is comparing points.
* The fields `suite`, `long` of `DistKeyGenerator` repeat `c.suite`, `c.longterm`.
-/
import Verif.Model.VssPedersen

namespace Kyber.DkgP

open Kyber.Poly Kyber.VssP

/-- `DKGError`, share/dkg/error.rs, as far as used. -/
inductive DkgError
  | emptyNodeList
  | reshareMissingOldNodes
  | reshareMissingOldThreshold
  | publicKeyNotFound
  | noPublicPolys
  | duplicatePublicKeyInNewList
  | distDealFromUnlistedDealer
  | distDealIndexOutOfBounds
  | ownDealComplaint
  | cannotProcessOwnDeal
  | responseFromUnknownDealer
  | justificationWithoutDeal
  | distributedKeyNotCertified
  | shouldReceive
  | dealsNotFound
  | shareDoesNotMatchPublicPoly
  | wrongRenewal
  | differentParty
  | vss (e : VssError)
  | signature (e : Schnorr.SigError)
  | poly (e : PolyError)
  deriving DecidableEq, Repr

/-- `DistKeyShare`, structs.rs:19-29. -/
structure DistKeyShare (F G : Type) where
  commits : List G
  share : Share F
  privatePoly : List F
  deriving DecidableEq

/-- `Deal`, structs.rs:77-86. -/
structure Deal (G : Type) where
  index : Nat
  deal : EncryptedDeal G
  signature : Bytes

/-- `Response`, structs.rs:109-116. -/
structure Response where
  index : Nat
  response : VssP.Response
  deriving DecidableEq, Repr

/-- `Justification`, structs.rs:131-138. -/
structure Justification (F G : Type) where
  index : Nat
  justification : VssP.Justification F G
  deriving DecidableEq

/-- `Config`, dkg.rs:41-97. -/
structure Config (F G : Type) where
  longterm : F
  oldNodes : List G
  publicCoeffs : Option (List G)
  newNodes : List G
  share : Option (DistKeyShare F G)
  threshold : Nat
  oldThreshold : Nat

/-- Everything external: what the VSS uses, and the serialisation of a distributed deal without its
signature (structs.rs:100-106). -/
structure DkgEnv (F G : Type) extends Env F G where
  encDist : Nat → EncryptedDeal G → Bytes

/-- `DistKeyGenerator`, dkg.rs:172-210. -/
structure Dkg (F G : Type) where
  c : Config F G
  pubb : G
  dpub : PubPoly G
  dealer : Dealer F G
  verifiers : AMap (Verifier F G)
  oldAggregators : AMap (Aggregator F G)
  oidx : Nat
  nidx : Nat
  oldT : Nat
  newT : Nat
  isResharing : Bool
  canIssue : Bool
  canReceive : Bool
  newPresent : Bool
  oldPresent : Bool
  processed : Bool
  timeout : Bool

variable {F G : Type} [Field F] [AddCommGroup G] [SMul F G] [DecidableEq G]

omit [AddCommGroup G] in
/-- `find_pub`, dkg.rs:1109-1116: the first position of a key. -/
def findPub (list : List G) (p : G) : Nat × Bool :=
  match list.findIdx? (fun q => decide (q = p)) with
  | some i => (i, true)
  | none => (0, false)

/-- `vss::Dealer::default()`: never used for anything, because `can_issue` is false then. -/
def defaultDealer : Dealer F G :=
  { long := 0, pubb := 0, secret := 0, secretCommits := [], secretPoly := ⟨[]⟩, verifiers := [],
    hkdfContext := [], t := 0, sessionId := [], deals := [], aggregator := newEmptyAggregator [] }

/-- `init_verifiers`, dkg.rs:1045-1063. -/
def initVerifiers (S : Suite F G) (c : Config F G) : Res DkgError (AMap (Verifier F G)) := do
  let r ← c.oldNodes.zipIdx.foldlM (fun (acc : AMap (Verifier F G) × List G) pi =>
    if pi.1 ∈ acc.2 then .err .duplicatePublicKeyInNewList
    else do
      let ver ← (newVerifier S c.longterm pi.1 c.newNodes).mapErr .vss
      .ok (acc.1.insert pi.2 { ver with aggregator := ver.aggregator.setThreshold c.threshold },
        pi.1 :: acc.2)) ([], [])
  .ok r.1

/-- The commitments to the old secret, dkg.rs:368-388: those given, or those of the own share. -/
def oldCoeffs (c : Config F G) : List G :=
  match c.publicCoeffs, c.share with
  | some cs, _ => cs
  | none, some sh => sh.commits
  | none, none => []

/-- The generator built by `new_dist_key_handler`, dkg.rs:362-411, before the verifiers are set up;
`new` is the position in the new list. -/
def prepare (S : Suite F G) (c : Config F G) (isResharing : Bool) (new : Nat × Bool)
    (dealer : Dealer F G) (canIssue : Bool) (oldNodes : List G) (newT : Nat) : Dkg F G :=
  let pubb := c.longterm • S.base
  let c := { c with oldNodes := oldNodes }
  let old := findPub oldNodes pubb
  let receiver := isResharing && new.2
  { c := if receiver then { c with publicCoeffs := some (oldCoeffs c) } else c,
    pubb := pubb,
    dpub := if receiver then ⟨some S.base, oldCoeffs c⟩ else ⟨none, []⟩,
    dealer := dealer, verifiers := [], oldAggregators := [],
    oidx := old.1, nidx := new.1,
    oldT := if receiver then (oldCoeffs c).length else 0,
    newT := newT, isResharing := isResharing, canIssue := canIssue, canReceive := new.2,
    newPresent := new.2, oldPresent := old.2, processed := false, timeout := false }

/-- `new_dist_key_handler`, dkg.rs:280-420; `secret` is the secret coefficient picked in a fresh
DKG, `draws` are the other coefficients. An error of `init_verifiers` is dropped, and the
generator is returned without verifiers. -/
def newDistKeyHandler (S : Suite F G) (c : Config F G) (secret : F) (draws : List F) :
    Res DkgError (Dkg F G) :=
  if c.newNodes = [] ∧ c.oldNodes = [] then .err .emptyNodeList else
  let isResharing := c.share.isSome || c.publicCoeffs.isSome
  if isResharing = true ∧ c.oldNodes = [] then .err .reshareMissingOldNodes else
  if isResharing = true ∧ c.oldThreshold = 0 then .err .reshareMissingOldThreshold else
  let pubb := c.longterm • S.base
  let old := findPub c.oldNodes pubb
  let new := findPub c.newNodes pubb
  if old.2 = false ∧ new.2 = false then .err .publicKeyNotFound else
  let newT := if c.threshold ≠ 0 then c.threshold else minimumT c.newNodes.length
  -- dealer, dkg.rs:320-360
  let r : Res DkgError (Dealer F G × Bool × List G) :=
    match c.share with
    | some sh => do
      let d ← (newDealer S c.longterm sh.share.v c.newNodes newT draws).mapErr .vss
      .ok (d, true, c.oldNodes)
    | none =>
      if isResharing = false ∧ new.2 = true then do
        let d ← (newDealer S c.longterm secret c.newNodes newT draws).mapErr .vss
        .ok (d, true, c.newNodes)
      else .ok (defaultDealer, false, c.oldNodes)
  do
  let (dealer, canIssue, oldNodes) ← r
  let dkg := prepare S c isResharing new dealer canIssue oldNodes newT
  match new.2, initVerifiers S dkg.c with
  | true, .ok vs => .ok { dkg with verifiers := vs }
  | true, .panic => .panic
  | _, _ => .ok dkg

/-- `new_dist_key_generator`, dkg.rs:424-447. -/
def newDistKeyGenerator (S : Suite F G) (longterm : F) (participants : List G) (t : Nat)
    (secret : F) (draws : List F) : Res DkgError (Dkg F G) :=
  newDistKeyHandler S
    { longterm := longterm, oldNodes := [], publicCoeffs := none,
      newNodes := participants, share := none, threshold := t, oldThreshold := 0 } secret draws

namespace Dkg

omit [Field F] [AddCommGroup G] [SMul F G] [DecidableEq G] in
/-- Write back a verifier. -/
def setVerifier (d : Dkg F G) (i : Nat) (v : Verifier F G) : Dkg F G :=
  { d with verifiers := d.verifiers.insert i v }

/-- The closure `reject` of `process_deal`, dkg.rs:546-571: `resp` is the answer of the VSS, `ver`
the verifier afterwards, `pubb` the dealer's key, `k` a signature nonce. -/
def reject (E : DkgEnv F G) (d : Dkg F G) (index : Nat) (pubb : G) (ver : Verifier F G)
    (resp : VssP.Response) (k : F) : Dkg F G × Res DkgError Response :=
  let f := findPub d.c.newNodes pubb
  let ver := if f.2 then ver.unsafeSetResponseDkg f.1 statusComplaint else ver
  let ver := ver.unsafeSetResponseDkg d.nidx statusComplaint
  let resp := { resp with status := statusComplaint }
  let resp := { resp with signature := Schnorr.sign E.suite k d.c.longterm (resp.hash E.suite) }
  (d.setVerifier index ver, .ok ⟨index, resp⟩)

/-- `process_deal`, dkg.rs:513-597; `k`, `k'` are the nonces of the response's signature. -/
def processDeal (E : DkgEnv F G) (d : Dkg F G) (dd : Deal G) (k k' : F) :
    Dkg F G × Res DkgError Response :=
  if d.newPresent = false then (d, .err .distDealFromUnlistedDealer) else
  match (if d.isResharing then d.c.oldNodes else d.c.newNodes)[dd.index]? with
  | none => (d, .err .distDealIndexOutOfBounds)
  | some pubb =>
    match Schnorr.verify E.suite pubb (E.encDist dd.index dd.deal) dd.signature with
    | .err e => (d, .err (.signature e))
    | .panic => (d, .panic)
    | .ok () =>
      match d.verifiers.get dd.index with
      | none => (d, .panic)
      | some ver =>
        match ver.processEncryptedDeal E.toEnv dd.deal k with
        | (ver, .err e) => (d.setVerifier dd.index ver, .err (.vss e))
        | (ver, .panic) => (d.setVerifier dd.index ver, .panic)
        | (ver, .ok resp) =>
          let finish : Dkg F G × Res DkgError Response :=
            let f := findPub d.c.newNodes pubb
            let ver := if f.2 && !d.isResharing then
              ver.unsafeSetResponseDkg f.1 statusApproval else ver
            (d.setVerifier dd.index ver, .ok ⟨dd.index, resp⟩)
          if d.isResharing && d.canReceive then
            match d.dpub.eval F dd.index, ver.aggregator.deal.bind (fun dl => dl.commitments.head?) with
            | .ok expected, some c0 =>
              if expected.v ≠ c0 then d.reject E dd.index pubb ver resp k' else finish
            | _, _ => (d.setVerifier dd.index ver, .panic)
          else finish

/-- The deal for participant `i`, signed, dkg.rs:476-482. -/
def signDeal (E : DkgEnv F G) (d : Dkg F G) (e : EncryptedDeal G) (k : F) : Deal G :=
  { index := d.oidx, deal := e, signature := Schnorr.sign E.suite k d.c.longterm (E.encDist d.oidx e) }

/-- The loop of `deals`, dkg.rs:475-505. -/
def dealsLoop (E : DkgEnv F G) (encs : List (EncryptedDeal G)) (rnd : Nat → F) (vk vk' : F) :
    List Nat → Dkg F G → AMap (Deal G) → Dkg F G × Res DkgError (AMap (Deal G))
  | [], d, dd => (d, .ok dd)
  | i :: l, d, dd =>
    match encs[i]? with
    | none => (d, .panic)
    | some e =>
      let distd := d.signDeal E e (rnd i)
      if i = d.nidx ∧ d.newPresent = true ∧ d.isResharing = false then
        if d.processed then dealsLoop E encs rnd vk vk' l d dd
        else
          match ({ d with processed := true } : Dkg F G).processDeal E distd vk vk' with
          | (d', .ok r) =>
            if r.response.status ≠ statusApproval then (d', .err .ownDealComplaint)
            else dealsLoop E encs rnd vk vk' l d' dd
          | (d', .err _) => (d', .err .cannotProcessOwnDeal)
          | (d', .panic) => (d', .panic)
      else dealsLoop E encs rnd vk vk' l d (dd.insert i distd)

/-- `deals`, dkg.rs:466-507, with `encrypted_deals` of the VSS dealer, vss.rs:388-397. The
randomness: `dh i`, `k i` for the encryption of deal `i`, `rnd i` for its outer signature, `vk`,
`vk'` for the response to the own deal. -/
def deals (E : DkgEnv F G) (d : Dkg F G) (dh k rnd : Nat → F) (vk vk' : F) :
    Dkg F G × Res DkgError (AMap (Deal G)) :=
  if d.canIssue = false then (d, .ok [])
  else
    match (List.range d.dealer.verifiers.length).mapM
        (fun i => d.dealer.encryptedDeal E.toEnv i (dh i) (k i)) with
    | .err e => (d, .err (.vss e))
    | .panic => (d, .panic)
    | .ok encs => dealsLoop E encs rnd vk vk' (List.range d.c.newNodes.length) d []

/-- `process_resharing_response`, dkg.rs:644-682: a default aggregator (no session id, threshold 0)
is created for a dealer heard of for the first time. -/
def processResharingResponse (E : DkgEnv F G) (d : Dkg F G) (r : Response) :
    Dkg F G × Res DkgError (Option (Justification F G)) :=
  let agg := (d.oldAggregators.get r.index).getD (newEmptyAggregator d.c.newNodes)
  let (agg, res) := agg.verifyResponse E.suite r.response
  let d := { d with oldAggregators := d.oldAggregators.insert r.index agg }
  match res with
  | .err e => (d, .err (.vss e))
  | .panic => (d, .panic)
  | .ok () =>
    if r.index ≠ d.oidx then (d, .ok none)
    else if r.response.status = statusApproval then (d, .ok none)
    else match d.dealer.plaintextDeal r.response.index with
      | .err e => (d, .err (.vss e))
      | .panic => (d, .panic)
      | .ok deal => (d, .ok (some
          { index := d.oidx
            justification := { sessionId := d.dealer.sessionId, index := r.response.index,
                               deal := deal, signature := [] } }))

/-- `process_response`, dkg.rs:604-638; `k` is the nonce of the justification's signature. -/
def processResponse (E : DkgEnv F G) (d : Dkg F G) (r : Response) (k : F) :
    Dkg F G × Res DkgError (Option (Justification F G)) :=
  if d.isResharing = true ∧ d.canIssue = true ∧ d.newPresent = false then
    d.processResharingResponse E r
  else
    match d.verifiers.get r.index with
    | none => (d, .err .responseFromUnknownDealer)
    | some v =>
      match v.processResponse E.suite r.response with
      | (v, .err e) => (d.setVerifier r.index v, .err (.vss e))
      | (v, .panic) => (d.setVerifier r.index v, .panic)
      | (v, .ok ()) =>
        let d := d.setVerifier r.index v
        if d.canIssue = false ∨ r.index ≠ d.oidx then (d, .ok none)
        else
          match d.dealer.processResponse E.toEnv r.response k with
          | (dl, .err e) => ({ d with dealer := dl }, .err (.vss e))
          | (dl, .panic) => ({ d with dealer := dl }, .panic)
          | (dl, .ok none) => ({ d with dealer := dl }, .ok none)
          | (dl, .ok (some j)) =>
            let d := { d with dealer := dl }
            match v.processJustification E.suite j with
            | (v, .err e) => (d.setVerifier r.index v, .err (.vss e))
            | (v, .panic) => (d.setVerifier r.index v, .panic)
            | (v, .ok ()) => (d.setVerifier r.index v, .ok (some ⟨d.oidx, j⟩))

/-- `process_justification`, dkg.rs:686-695. -/
def processJustification (E : DkgEnv F G) (d : Dkg F G) (j : Justification F G) :
    Dkg F G × Res DkgError Unit :=
  match d.verifiers.get j.index with
  | none => (d, .err .justificationWithoutDeal)
  | some v =>
    let (v, res) := v.processJustification E.suite j.justification
    (d.setVerifier j.index v, res.mapErr .vss)

omit [Field F] [AddCommGroup G] [SMul F G] [DecidableEq G] in
/-- `set_timeout`, dkg.rs:699-704. -/
def setTimeout (d : Dkg F G) : Dkg F G :=
  { d with timeout := true, verifiers := d.verifiers.map (fun e => (e.1, e.2.setTimeout)) }

omit [Field F] [AddCommGroup G] [SMul F G] [DecidableEq G] in
/-- `qual`, dkg.rs:832-846, with `qual_iter` (dkg.rs:861-870) and `old_qual_iter`
(dkg.rs:872-881). -/
def qual (ord : MapOrder) (d : Dkg F G) : List Nat :=
  if d.isResharing = true ∧ d.canIssue = true ∧ d.newPresent = false then
    (ord.run d.oldAggregators).filterMap (fun e => if e.2.dealCertified then some e.1 else none)
  else
    (ord.run d.verifiers).filterMap (fun e => if e.2.aggregator.dealCertified then some e.1 else none)

omit [Field F] [AddCommGroup G] [SMul F G] [DecidableEq G] in
/-- `is_in_qual`, dkg.rs:848-859: stops at the first hit, which does not change the answer. -/
def isInQual (ord : MapOrder) (d : Dkg F G) (idx : Nat) : Bool :=
  (ord.run d.verifiers).any (fun e => e.2.aggregator.dealCertified && decide (e.1 = idx))

omit [Field F] [AddCommGroup G] [SMul F G] [DecidableEq G] in
/-- The number of entries visited by `certified` (dkg.rs:731-750) before the iteration stops, which
it does at the first certified deal with a missing response. -/
def goodCount : List (Bool × List Nat) → Nat
  | [] => 0
  | (certified, missing) :: l =>
    if certified then (if missing ≠ [] then 0 else goodCount l + 1) else goodCount l

omit [Field F] [AddCommGroup G] [SMul F G] [DecidableEq G] in
/-- `certified`, dkg.rs:731-751. -/
def certified (ord : MapOrder) (d : Dkg F G) : Bool :=
  let old := if d.isResharing = true ∧ d.canIssue = true ∧ d.newPresent = false then
    goodCount ((ord.run d.oldAggregators).map (fun e => (e.2.dealCertified, e.2.missingResponses)))
    else 0
  let new := goodCount ((ord.run d.verifiers).map
    (fun e => (e.2.aggregator.dealCertified, e.2.aggregator.missingResponses)))
  decide (d.c.oldNodes.length ≤ old + new)

omit [Field F] [AddCommGroup G] [SMul F G] [DecidableEq G] in
/-- `threshold_certified`, dkg.rs:716-726: compares with the threshold of the configuration. -/
def thresholdCertified (ord : MapOrder) (d : Dkg F G) : Bool :=
  if d.isResharing then decide (d.c.oldThreshold ≤ (d.qual ord).length)
  else decide (d.c.threshold ≤ (d.qual ord).length)

omit [Field F] [AddCommGroup G] [SMul F G] [DecidableEq G] in
/-- A deal that `qualified_shares` does not analyse, dkg.rs:768-790: no response at all, or a
complaint of a share holder. -/
def invalidDeal (d : Dkg F G) (v : Verifier F G) : Bool :=
  v.aggregator.responses.isEmpty ||
  (List.range d.c.newNodes.length).any (fun i => match v.aggregator.responses.get i with
    | some r => r.status = statusComplaint
    | none => false)

omit [Field F] [AddCommGroup G] [SMul F G] [DecidableEq G] in
/-- `qualified_shares`, dkg.rs:765-814. The hash maps of invalid deals and holders are only asked
for membership, so the order in which they are filled does not show. -/
def qualifiedShares (ord : MapOrder) (d : Dkg F G) : List Nat :=
  let invalidDeals := (ord.run d.verifiers).filterMap (fun e => if d.invalidDeal e.2 then some e.1 else none)
  let invalidSh := ((ord.run d.verifiers).filter (fun e => !invalidDeals.contains e.1)).flatMap
    (fun e => (List.range d.c.newNodes.length).filter (fun i => (e.2.aggregator.responses.get i).isNone))
  (List.range d.c.newNodes.length).filter (fun i => !invalidSh.contains i)

omit [Field F] [AddCommGroup G] [SMul F G] [DecidableEq G] in
/-- `expected_deals`, dkg.rs:818-826. -/
def expectedDeals (d : Dkg F G) : Nat :=
  if d.newPresent then (if d.oldPresent then d.c.oldNodes.length - 1 else d.c.oldNodes.length) else 0

/-- The iteration of `dkg_key`, dkg.rs:910-939, over the verifiers in the order visited. -/
def dkgLoop (S : Suite F G) : List (Nat × Verifier F G) → F → Option (PubPoly G) →
    Res DkgError (F × Option (PubPoly G))
  | [], sh, p => .ok (sh, p)
  | (_, v) :: l, sh, p =>
    if v.aggregator.dealCertified = false then dkgLoop S l sh p
    else match v.deal with
      | none => .err .dealsNotFound
      | some deal =>
        let poly : PubPoly G := ⟨some S.base, deal.commitments⟩
        match p with
        | none => dkgLoop S l (sh + deal.secShare.v) (some poly)
        | some q => match q.add poly with
          | .ok r => dkgLoop S l (sh + deal.secShare.v) (some r)
          | .err e => .err (.poly e)
          | .panic => .panic

/-- `dkg_key`, dkg.rs:905-954: panics if no deal is certified. -/
def dkgKey (S : Suite F G) (ord : MapOrder) (d : Dkg F G) : Res DkgError (DistKeyShare F G) := do
  let r ← dkgLoop S (ord.run d.verifiers) 0 none
  let p ← Res.unwrap r.2
  .ok { commits := p.commits, share := ⟨d.nidx, r.1⟩, privatePoly := d.dealer.secretPoly.coeffs }

omit [Field F] [AddCommGroup G] [SMul F G] [DecidableEq G] in
/-- The iteration of `resharing_key`, dkg.rs:968-983: stops at the first certified deal that is
missing; the error set there is never looked at. `coeffs[i]` panics out of range. -/
def reshareLoop : List (Nat × Verifier F G) → List (Option (Share F)) → List (Option (List G)) →
    Res DkgError (List (Option (Share F)) × List (Option (List G)))
  | [], shares, coeffs => .ok (shares, coeffs)
  | (i, v) :: l, shares, coeffs =>
    if v.aggregator.dealCertified = false then reshareLoop l shares coeffs
    else match v.deal with
      | none => .ok (shares, coeffs)
      | some deal =>
        if coeffs.length ≤ i then .panic
        else reshareLoop l (shares.set i (some ⟨i, deal.secShare.v⟩)) (coeffs.set i (some deal.commitments))

omit [Field F] [AddCommGroup G] [SMul F G] [DecidableEq G] in
/-- The `i`-th coefficients, dkg.rs:1005-1016; `commitments[i]` panics out of range. -/
def column (coeffs : List (Option (List G))) (i : Nat) : Res DkgError (List (Option (Share G))) :=
  coeffs.zipIdx.mapM (fun cj => match cj.1 with
    | none => .ok none
    | some cs => match cs[i]? with
      | none => .panic
      | some c => .ok (some ⟨cj.2, c⟩))

/-- `resharing_key`, dkg.rs:956-1038. -/
def resharingKey (S : Suite F G) (ord : MapOrder) (d : Dkg F G) : Res DkgError (DistKeyShare F G) := do
  let cap := d.verifiers.length
  let r ← reshareLoop (ord.run d.verifiers) (List.replicate cap none) (List.replicate cap none)
  let priPoly ← (recoverPriPoly ord r.1 d.oldT).mapErr .poly
  let secret ← (priPoly.secret).mapErr .poly
  let privateShare : Share F := ⟨d.nidx, secret⟩
  let finalCoeffs ← (List.range d.newT).mapM (fun i => do
    let tmp ← column r.2 i
    (recoverCommit (F := F) ord tmp d.oldT).mapErr .poly)
  let ok ← ((⟨none, finalCoeffs⟩ : PubPoly G).check S.base privateShare).mapErr .poly
  if ok = false then .err .shareDoesNotMatchPublicPoly
  else .ok { commits := finalCoeffs, share := privateShare, privatePoly := priPoly.coeffs }

/-- `dist_key_share`, dkg.rs:890-903. -/
def distKeyShare (S : Suite F G) (ord : MapOrder) (d : Dkg F G) : Res DkgError (DistKeyShare F G) :=
  if d.thresholdCertified ord = false then .err .distributedKeyNotCertified
  else if d.canReceive = false then .err .shouldReceive
  else if d.isResharing then d.resharingKey S ord
  else d.dkgKey S ord

end Dkg

namespace DistKeyShare

omit [Field F] [AddCommGroup G] [SMul F G] [DecidableEq G] in
/-- `public`, structs.rs:54-57. -/
def publicKey (d : DistKeyShare F G) : Res DkgError G := Res.unwrap d.commits.head?

/-- `renew`, dkg.rs:1068-1099; `g.commits[i]` panics out of range. -/
def renew (S : Suite F G) (d g : DistKeyShare F G) : Res DkgError (DistKeyShare F G) := do
  let p ← g.publicKey
  if p ≠ (0 : F) • S.base then .err .wrongRenewal
  else if d.share.i ≠ g.share.i then .err .differentParty
  else do
    let commits ← d.commits.zipIdx.mapM (fun ci => do
      let gi ← Res.unwrap g.commits[ci.2]?
      .ok (ci.1 + gi))
    .ok { commits := commits, share := ⟨d.share.i, d.share.v + g.share.v⟩, privatePoly := [] }

end DistKeyShare

end Kyber.DkgP
