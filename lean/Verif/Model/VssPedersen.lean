/-
Model of `src/share/vss/pedersen/vss.rs`.

Simplifications, valid for the whole file:
* `&mut self` methods return the new state next to the result; on an error or a panic the
  state is the one left behind by the assignments executed so far.
* The number of verifiers and the indices are below 2^32, so the casts between `usize` and `u32`
  do nothing.
* bincode serialisation of a deal is a parameter (`Codec`); marshalling never fails.
* Random scalars (polynomial coefficients, ephemeral keys, signature nonces) are arguments.
* `Aggregator::suite`, `Aggregator::dealer` are never read and left out, and so are getters.
-/
import Verif.Model.Poly
import Verif.Model.Schnorr
import Verif.Model.Dh
import Mathlib.Algebra.Module.Defs

namespace Kyber.VssP

open Kyber.Poly

/-- `VSSError`, share/vss/error.rs. -/
inductive VssError
  | invalidThreshold
  | dealerWrongIndex
  | publicKeyNotFound
  | dealWrongIndex
  | dealAlreadyProcessed
  | dealInvalidThreshold
  | dealIncompatibleThreshold
  | dealInvalidSessionId
  | dealIndexOutOfBounds
  | dealInconsistentIndex
  | dealDoesNotVerify
  | dealsSameID
  | responseInconsistentSessionId
  | responseIndexOutOfBounds
  | responseAlreadyExisting
  | complaintIndexOutOfBounds
  | justificationIndexOutOfBounds
  | justificationNoComplaints
  | justificationForApproval
  | signature (e : Schnorr.SigError)
  | dh (e : Dh.DhError)
  | noAggregatorForVerifier
  | missingAggregator
  | marshalling
  | poly (e : PolyError)
  deriving DecidableEq, Repr

/-- `Deal`, vss.rs:115-124. -/
structure Deal (F G : Type) where
  sessionId : Bytes
  secShare : Share F
  t : Nat
  commitments : List G
  deriving DecidableEq

/-- `EncryptedDeal`, vss.rs:173-183. -/
structure EncryptedDeal (G : Type) where
  dhkey : G
  signature : Bytes
  nonce : Bytes
  cipher : Bytes

/-- `Response`, vss.rs:199-208; `status = true` is an approval. -/
structure Response where
  sessionId : Bytes
  index : Nat
  status : Bool
  signature : Bytes
  deriving DecidableEq, Repr

/-- `Justification`, vss.rs:244-253. -/
structure Justification (F G : Type) where
  sessionId : Bytes
  index : Nat
  deal : Deal F G
  signature : Bytes
  deriving DecidableEq

/-- bincode serialisation of deals: `Deal::marshal_binary` (vss.rs:163-167), `Deal::decode`
(vss.rs:155-159). -/
structure Codec (F G : Type) where
  enc : Deal F G → Bytes
  dec : Bytes → Option (Deal F G)

/-- Everything external that the code uses. -/
structure Env (F G : Type) where
  suite : Suite F G
  prims : Dh.Prims
  codec : Codec F G

/-- `STATUS_COMPLAINT`, `STATUS_APPROVAL`, vss.rs:236-239. -/
def statusComplaint : Bool := false
@[inherit_doc statusComplaint] def statusApproval : Bool := true

/-- The ASCII bytes of a string literal of the code. -/
def ascii (s : String) : Bytes := s.toList.map (fun c => UInt8.ofNat c.toNat)

variable {F G : Type}

/-- `Response::hash`, vss.rs:223-231. -/
def Response.hash (S : Suite F G) (r : Response) : Bytes :=
  S.hash (ascii "response" ++ r.sessionId ++ u32le r.index ++ u32le (if r.status then 1 else 0))

/-- `Justification::hash`, vss.rs:268-278. -/
def Justification.hash (E : Env F G) (j : Justification F G) : Bytes :=
  E.suite.hash (ascii "justification" ++ j.sessionId ++ u32le j.index ++ E.codec.enc j.deal)

/-- `session_id`, vss.rs:1069-1091. -/
def sessionId (S : Suite F G) (dealer : G) (verifiers commitments : List G) (t : Nat) : Bytes :=
  S.hash (S.encG dealer ++ (verifiers.map S.encG).flatten ++ (commitments.map S.encG).flatten
    ++ u32le t)

/-- `context`, vss.rs:1093-1106. -/
def context (S : Suite F G) (dealer : G) (verifiers : List G) : Bytes :=
  S.hash (ascii "vss-dealer" ++ S.encG dealer ++ ascii "vss-verifiers"
    ++ (verifiers.map S.encG).flatten)

/-- `minimum_t`, vss.rs:1048-1050. -/
def minimumT (n : Nat) : Nat := (n + 1) / 2

/-- `valid_t`, vss.rs:1052-1054. -/
def validT (t : Nat) (verifiers : List G) : Bool :=
  decide (2 ≤ t) && decide (t ≤ verifiers.length) && decide (t % 4294967296 = t)

/-- `find_pub`, vss.rs:1065-1067. -/
def findPub (verifiers : List G) (idx : Nat) : Option G := verifiers[idx]?

/-- `Aggregator`, vss.rs:767-780. -/
structure Aggregator (F G : Type) where
  verifiers : List G
  commits : List G
  responses : AMap Response
  sid : Bytes
  deal : Option (Deal F G)
  t : Nat
  badDealer : Bool
  timeout : Bool

/-- `new_aggregator`, vss.rs:832-852. -/
def newAggregator (verifiers commitments : List G) (t : Nat) (sid : Bytes) : Aggregator F G :=
  { verifiers, commits := commitments, responses := [], sid, deal := none, t,
    badDealer := false, timeout := false }

/-- `new_empty_aggregator`, vss.rs:856-866. -/
def newEmptyAggregator (verifiers : List G) : Aggregator F G :=
  { verifiers, commits := [], responses := [], sid := [], deal := none, t := 0,
    badDealer := false, timeout := false }

namespace Aggregator

/-- The first part of `verify_deal`, vss.rs:880-885: remember the first deal. -/
def remember (a : Aggregator F G) (d : Deal F G) : Aggregator F G :=
  match a.deal with
  | some _ => a
  | none => { a with commits := d.commitments, sid := d.sessionId, deal := some d, t := d.t }

variable [Field F] [AddCommGroup G] [SMul F G] [DecidableEq G]

/-- The second part of `verify_deal`, vss.rs:887-912: the checks. -/
def checkDeal (S : Suite F G) (a : Aggregator F G) (d : Deal F G) : Res VssError Unit :=
  if validT d.t a.verifiers = false then .err .dealInvalidThreshold
  else if d.t ≠ a.t then .err .dealIncompatibleThreshold
  else if a.sid ≠ d.sessionId then .err .dealInvalidSessionId
  else if a.verifiers.length ≤ d.secShare.i then .err .dealIndexOutOfBounds
  else do
    let fig := d.secShare.v • S.base
    let pubShare ← ((⟨none, d.commitments⟩ : PubPoly G).eval F d.secShare.i).mapErr .poly
    if fig ≠ pubShare.v then .err .dealDoesNotVerify else .ok ()

/-- `verify_deal`, vss.rs:876-913. -/
def verifyDeal (S : Suite F G) (a : Aggregator F G) (d : Deal F G) (inclusion : Bool) :
    Aggregator F G × Res VssError Unit :=
  if a.deal.isSome && inclusion then (a, .err .dealAlreadyProcessed)
  else (a.remember d, (a.remember d).checkDeal S d)

omit [Field F] [AddCommGroup G] [SMul F G] [DecidableEq G] in
/-- `add_response`, vss.rs:976-985. -/
def addResponse (a : Aggregator F G) (r : Response) : Aggregator F G × Res VssError Unit :=
  if (findPub a.verifiers r.index).isNone then (a, .err .complaintIndexOutOfBounds)
  else if (a.responses.get r.index).isSome then (a, .err .responseAlreadyExisting)
  else ({ a with responses := a.responses.insert r.index r }, .ok ())

/-- `verify_response`, vss.rs:931-946. -/
def verifyResponse (S : Suite F G) (a : Aggregator F G) (r : Response) :
    Aggregator F G × Res VssError Unit :=
  if a.sid ≠ [] ∧ r.sessionId ≠ a.sid then (a, .err .responseInconsistentSessionId)
  else match findPub a.verifiers r.index with
    | none => (a, .err .responseIndexOutOfBounds)
    | some pub =>
      match Schnorr.verify S pub (r.hash S) r.signature with
      | .ok () => a.addResponse r
      | .err e => (a, .err (.signature e))
      | .panic => (a, .panic)

/-- `verify_justification`, vss.rs:948-974. The response is cloned, and the new status is
written to the clone, which is then dropped: nothing is stored. -/
def verifyJustification (S : Suite F G) (a : Aggregator F G) (j : Justification F G) :
    Aggregator F G × Res VssError Unit :=
  if (findPub a.verifiers j.index).isNone then (a, .err .justificationIndexOutOfBounds)
  else match a.responses.get j.index with
    | none => (a, .err .justificationNoComplaints)
    | some r =>
      if r.status ≠ statusComplaint then (a, .err .justificationForApproval)
      else
        let (a', res) := a.verifyDeal S j.deal false
        match res with
        | .ok () => (a', .ok ())
        | .err e => ({ a' with badDealer := true }, .err e)
        | .panic => (a', .panic)

omit [Field F] [AddCommGroup G] [SMul F G] [DecidableEq G] in
/-- The loop of `deal_certified`, vss.rs:1008-1021, over the indices of the verifiers: number of
absent verifiers, number of approvals, presence of a complaint. -/
def count (a : Aggregator F G) : List Nat → Nat × Nat × Bool
  | [] => (0, 0, false)
  | i :: l =>
    let (absent, approvals, complaint) := count a l
    match a.responses.get i with
    | none => (absent + 1, approvals, complaint)
    | some r => if r.status then (absent, approvals + 1, complaint) else (absent, approvals, true)

omit [Field F] [AddCommGroup G] [SMul F G] [DecidableEq G] in
/-- `deal_certified`, vss.rs:1007-1029. `self.verifiers.len() - self.t` wraps around when
`t > n` (overflow checks are off): the bound is then larger than any number of absentees. The
order in which the counters are increased does not matter, the model counts from the end. -/
def dealCertified (a : Aggregator F G) : Bool :=
  let n := a.verifiers.length
  let (absent, approvals, isComplaint) := a.count (List.range n)
  let enoughApprovals := decide (a.t ≤ approvals)
  let tooMuchAbsents := decide (a.t ≤ n) && decide (n - a.t < absent)
  let base := !a.badDealer && enoughApprovals && !isComplaint
  if a.timeout then base && !tooMuchAbsents else base && decide (absent = 0)

omit [Field F] [AddCommGroup G] [SMul F G] [DecidableEq G] in
/-- `missing_responses`, vss.rs:1032-1040. -/
def missingResponses (a : Aggregator F G) : List Nat :=
  (List.range a.verifiers.length).filter (fun i => (a.responses.get i).isNone)

omit [Field F] [AddCommGroup G] [SMul F G] [DecidableEq G] in
/-- `set_threshold`, vss.rs:920-922. -/
def setThreshold (a : Aggregator F G) (t : Nat) : Aggregator F G := { a with t := t }

omit [Field F] [AddCommGroup G] [SMul F G] [DecidableEq G] in
/-- `set_timeout` of dealer and verifier, vss.rs:458-460, 722-726. -/
def setTimeout (a : Aggregator F G) : Aggregator F G := { a with timeout := true }

end Aggregator

/-- `Dealer`, vss.rs:30-48. -/
structure Dealer (F G : Type) where
  long : F
  pubb : G
  secret : F
  secretCommits : List G
  secretPoly : PriPoly F
  verifiers : List G
  hkdfContext : Bytes
  t : Nat
  sessionId : Bytes
  deals : List (Deal F G)
  aggregator : Aggregator F G

section
variable [Field F] [AddCommGroup G] [SMul F G] [DecidableEq G]

omit [DecidableEq G] in
/-- `new_dealer`, vss.rs:287-337; `draws` are the random coefficients. -/
def newDealer (S : Suite F G) (longterm secret : F) (verifiers : List G) (t : Nat)
    (draws : List F) : Res VssError (Dealer F G) :=
  if validT t verifiers = false then .err .invalidThreshold
  else do
    let f ← Res.unwrap (newPriPoly t (some secret) draws)
    let dPub := longterm • S.base
    let commits := (f.commit S.base (some S.base)).commits
    let sid := VssP.sessionId S dPub verifiers commits t
    let agg := newAggregator verifiers commits t sid
    let deals := (List.range verifiers.length).map (fun i =>
      ({ sessionId := sid, secShare := f.eval i, t := t, commitments := commits } : Deal F G))
    .ok { long := longterm, pubb := dPub, secret := secret, secretCommits := commits,
          secretPoly := f, verifiers := verifiers, hkdfContext := context S dPub verifiers,
          t := t, sessionId := sid, deals := deals, aggregator := agg }

namespace Dealer

omit [DecidableEq G] [Field F] [AddCommGroup G] [SMul F G] in
/-- `plaintext_deal`, vss.rs:346-352. -/
def plaintextDeal (d : Dealer F G) (i : Nat) : Res VssError (Deal F G) :=
  Res.ofOption .dealerWrongIndex d.deals[i]?

omit [DecidableEq G] in
/-- `encrypted_deal`, vss.rs:361-383; `dhSecret` is the ephemeral key, `k` the signature nonce. -/
def encryptedDeal (E : Env F G) (d : Dealer F G) (i : Nat) (dhSecret k : F) :
    Res VssError (EncryptedDeal G) := do
  let vPub ← Res.ofOption .dealerWrongIndex (findPub d.verifiers i)
  let dhPublic := dhSecret • E.suite.base
  let signature := Schnorr.sign E.suite k d.long (E.suite.encG dhPublic)
  let pre := Dh.dhExchange dhSecret vPub
  let gcm ← (Dh.AEAD.new E.prims E.suite pre d.hkdfContext).mapErr .dh
  let nonce : Bytes := List.replicate Dh.nonceSize 0
  let deal ← Res.unwrap d.deals[i]?
  let c ← (gcm.seal_ E.prims none nonce (E.codec.enc deal) (some d.hkdfContext)).mapErr .dh
  .ok { dhkey := dhPublic, signature := signature, nonce := nonce, cipher := c.1 }

/-- `process_response` of the dealer, vss.rs:403-426; `k` is the signature nonce. -/
def processResponse (E : Env F G) (d : Dealer F G) (r : Response) (k : F) :
    Dealer F G × Res VssError (Option (Justification F G)) :=
  let (agg, res) := d.aggregator.verifyResponse E.suite r
  let d := { d with aggregator := agg }
  match res with
  | .err e => (d, .err e)
  | .panic => (d, .panic)
  | .ok () =>
    if r.status = statusApproval then (d, .ok none)
    else match d.deals[r.index]? with
      | none => (d, .panic)
      | some deal =>
        let j : Justification F G :=
          { sessionId := d.sessionId, index := r.index, deal := deal, signature := [] }
        (d, .ok (some { j with signature := Schnorr.sign E.suite k d.long (j.hash E) }))

/-- `secret_commit`, vss.rs:431-436. -/
def secretCommit (S : Suite F G) (d : Dealer F G) : Option G :=
  if d.aggregator.dealCertified = false then none else some (d.secret • S.base)

end Dealer

/-- `Verifier`, vss.rs:472-482; the aggregator is always present. -/
structure Verifier (F G : Type) where
  longterm : F
  pubb : G
  dealer : G
  index : Nat
  verifiers : List G
  hkdfContext : Bytes
  aggregator : Aggregator F G

/-- `new_verifier`, vss.rs:535-565: the index is the first position holding the own key. -/
def newVerifier (S : Suite F G) (longterm : F) (dealerKey : G) (verifiers : List G) :
    Res VssError (Verifier F G) :=
  let pubb := longterm • S.base
  match verifiers.findIdx? (fun v => decide (v = pubb)) with
  | none => .err .publicKeyNotFound
  | some index => .ok
      { longterm := longterm, pubb := pubb, dealer := dealerKey, index := index,
        verifiers := verifiers, hkdfContext := context S dealerKey verifiers,
        aggregator := newEmptyAggregator verifiers }

namespace Verifier

/-- `decrypt_deal`, vss.rs:640-660: the nonce must have 12 bytes, otherwise the conversion
panics. -/
def decryptDeal (E : Env F G) (v : Verifier F G) (e : EncryptedDeal G) :
    Res VssError (Deal F G) := do
  let _ ← (Schnorr.verify E.suite v.dealer (E.suite.encG e.dhkey) e.signature).mapErr .signature
  let pre := Dh.dhExchange v.longterm e.dhkey
  let gcm ← (Dh.AEAD.new E.prims E.suite pre v.hkdfContext).mapErr .dh
  if e.nonce.length ≠ Dh.nonceSize then .panic else
  let m ← (gcm.open_ E.prims none e.nonce e.cipher (some v.hkdfContext)).mapErr .dh
  Res.ofOption .marshalling (E.codec.dec m.1)

/-- `process_encrypted_deal` after decryption and the index check, vss.rs:604-637. -/
def processDeal (E : Env F G) (v : Verifier F G) (d : Deal F G) (k : F) :
    Verifier F G × Res VssError Response :=
  let sid := VssP.sessionId E.suite v.dealer v.verifiers d.commitments d.t
  let (agg, res) := v.aggregator.verifyDeal E.suite d true
  let v := { v with aggregator := agg }
  let reply (status : Bool) : Verifier F G × Res VssError Response :=
    let r : Response := { sessionId := sid, index := v.index, status := status, signature := [] }
    let r := { r with signature := Schnorr.sign E.suite k v.longterm (r.hash E.suite) }
    let (agg, res) := v.aggregator.addResponse r
    ({ v with aggregator := agg }, res >>= fun _ => .ok r)
  match res with
  | .ok () => reply statusApproval
  | .err .dealAlreadyProcessed => (v, .err .dealAlreadyProcessed)
  | .err _ => reply statusComplaint
  | .panic => (v, .panic)

/-- `process_encrypted_deal`, vss.rs:595-638; `k` is the nonce of the response's signature. -/
def processEncryptedDeal (E : Env F G) (v : Verifier F G) (e : EncryptedDeal G) (k : F) :
    Verifier F G × Res VssError Response :=
  match v.decryptDeal E e with
  | .err err => (v, .err err)
  | .panic => (v, .panic)
  | .ok d => if d.secShare.i ≠ v.index then (v, .err .dealWrongIndex) else v.processDeal E d k

/-- `process_response` of the verifier, vss.rs:666-671. -/
def processResponse (S : Suite F G) (v : Verifier F G) (r : Response) :
    Verifier F G × Res VssError Unit :=
  let (agg, res) := v.aggregator.verifyResponse S r
  ({ v with aggregator := agg }, res)

/-- `process_justification`, vss.rs:693-698. -/
def processJustification (S : Suite F G) (v : Verifier F G) (j : Justification F G) :
    Verifier F G × Res VssError Unit :=
  let (agg, res) := v.aggregator.verifyJustification S j
  ({ v with aggregator := agg }, res)

omit [Field F] [AddCommGroup G] [SMul F G] [DecidableEq G] in
/-- `deal`, vss.rs:682-687. -/
def deal (v : Verifier F G) : Option (Deal F G) :=
  if v.aggregator.dealCertified = false then none else v.aggregator.deal

omit [Field F] [AddCommGroup G] [SMul F G] [DecidableEq G] in
/-- `set_timeout`, vss.rs:722-726. -/
def setTimeout (v : Verifier F G) : Verifier F G :=
  { v with aggregator := v.aggregator.setTimeout }

omit [Field F] [AddCommGroup G] [SMul F G] [DecidableEq G] in
/-- `unsafe_set_response_dkg`, vss.rs:731-740: the error of `add_response` is ignored. -/
def unsafeSetResponseDkg (v : Verifier F G) (idx : Nat) (approval : Bool) : Verifier F G :=
  { v with aggregator := (v.aggregator.addResponse
      { sessionId := v.aggregator.sid, index := idx, status := approval, signature := [] }).1 }

end Verifier

omit [AddCommGroup G] [SMul F G] [DecidableEq G] in
/-- `recover_secret`, vss.rs:746-762. -/
def recoverSecret (ord : MapOrder) (deals : List (Deal F G)) (t : Nat) : Res VssError F :=
  match deals with
  | [] => (Poly.recoverSecret ord ([] : List (Option (Share F))) t).mapErr .poly
  | d0 :: _ =>
    if deals.all (fun d => decide (d.sessionId = d0.sessionId)) then
      (Poly.recoverSecret ord (deals.map (fun d => some d.secShare)) t).mapErr .poly
    else .err .dealsSameID

end

end Kyber.VssP
