/-
Model of `src/share/vss/rabin/vss.rs`.

The simplifications of `Verif/Model/VssPedersen.lean` apply. `Response`, `EncryptedDeal`,
`session_id`, `valid_t`, `find_pub` are textually the same in both files (vss.rs here: 229-262,
197-208, 1046-1067, 1029-1031, 1042-1044; the field `approved` is called `status`), and so are the
model's definitions. `context` (vss.rs:1093-1107) takes 128 bytes from the XOF seeded with
"vss-dealer" where the Pedersen file takes the digest of the same bytes. Simplified: the XOF is
represented by the same abstract hash function as the digest; the theorems only use that dealer and
verifier compute the same bytes. The second base point `derive_h` (vss.rs:1033-1040)
is drawn from a XOF seeded with the verifiers' keys: it is a parameter of the environment.
-/
import Verif.Model.VssPedersen

namespace Kyber.VssR

open Kyber.Poly
open Kyber.VssP (VssError EncryptedDeal Response validT findPub context ascii)

/-- `Deal`, vss.rs:136-148. -/
structure Deal (F G : Type) where
  sessionId : Bytes
  secShare : Share F
  rndShare : Share F
  t : Nat
  commitments : List G
  deriving DecidableEq

/-- `Justification`, vss.rs:267-277. -/
structure Justification (F G : Type) where
  sessionId : Bytes
  index : Nat
  deal : Deal F G
  signature : Bytes
  deriving DecidableEq

/-- bincode serialisation of deals: `Deal::marshal_binary` (vss.rs:187-191), `Deal::decode`
(vss.rs:180-184). -/
structure Codec (F G : Type) where
  enc : Deal F G → Bytes
  dec : Bytes → Option (Deal F G)

/-- Everything external that the code uses. -/
structure Env (F G : Type) where
  suite : Suite F G
  prims : Dh.Prims
  codec : Codec F G
  /-- `suite.point().pick(&mut suite.xof(Some(seed)))` as a function of the seed, vss.rs:1038 -/
  pickFrom : Bytes → G

variable {F G : Type}

/-- `derive_h`, vss.rs:1033-1040. -/
def deriveH (E : Env F G) (verifiers : List G) : G :=
  E.pickFrom (verifiers.map E.suite.encG).flatten

/-- `Justification::hash`, vss.rs:292-302. -/
def Justification.hash (E : Env F G) (j : Justification F G) : Bytes :=
  E.suite.hash (ascii "justification" ++ j.sessionId ++ u32le j.index ++ E.codec.enc j.deal)

/-- `Aggregator`, vss.rs:770-781. -/
structure Aggregator (F G : Type) where
  verifiers : List G
  commits : List G
  responses : AMap Response
  sid : Bytes
  deal : Option (Deal F G)
  t : Nat
  badDealer : Bool
  deriving DecidableEq

/-- `new_aggregator`, vss.rs:834-853. -/
def newAggregator (verifiers commitments : List G) (t : Nat) (sid : Bytes) : Aggregator F G :=
  { verifiers, commits := commitments, responses := [], sid, deal := none, t,
    badDealer := false }

namespace Aggregator

/-- The first part of `verify_deal`, vss.rs:867-871: remember the first deal. The threshold of the
aggregator is not changed here. -/
def remember (a : Aggregator F G) (d : Deal F G) : Aggregator F G :=
  match a.deal with
  | some _ => a
  | none => { a with commits := d.commitments, sid := d.sessionId, deal := some d }

variable [Field F] [AddCommGroup G] [SMul F G] [DecidableEq G]

/-- The second part of `verify_deal`, vss.rs:873-901: the checks. -/
def checkDeal (E : Env F G) (a : Aggregator F G) (d : Deal F G) : Res VssError Unit :=
  if validT d.t a.verifiers = false then .err .dealInvalidThreshold
  else if a.sid ≠ d.sessionId then .err .dealInvalidSessionId
  else if d.secShare.i ≠ d.rndShare.i then .err .dealInconsistentIndex
  else if a.verifiers.length ≤ d.secShare.i then .err .dealIndexOutOfBounds
  else do
    let fig := d.secShare.v • E.suite.base
    let h := deriveH E a.verifiers
    let gih := d.rndShare.v • h
    let ci := fig + gih
    let pubShare ← ((⟨none, d.commitments⟩ : PubPoly G).eval F d.secShare.i).mapErr .poly
    if ci ≠ pubShare.v then .err .dealDoesNotVerify else .ok ()

/-- `verify_deal`, vss.rs:863-902. -/
def verifyDeal (E : Env F G) (a : Aggregator F G) (d : Deal F G) (inclusion : Bool) :
    Aggregator F G × Res VssError Unit :=
  if a.deal.isSome && inclusion then (a, .err .dealAlreadyProcessed)
  else (a.remember d, (a.remember d).checkDeal E d)

omit [Field F] [AddCommGroup G] [SMul F G] [DecidableEq G] in
/-- One iteration of `clean_verifiers`, vss.rs:908-915. -/
def cleanOne (sid : Bytes) (m : AMap Response) (i : Nat) : AMap Response :=
  match m.get i with
  | some _ => m
  | none => m.insert i { sessionId := sid, index := i, status := false, signature := [] }

omit [Field F] [AddCommGroup G] [SMul F G] [DecidableEq G] in
/-- `clean_verifiers`, vss.rs:906-917. -/
def cleanVerifiers (a : Aggregator F G) : Aggregator F G :=
  { a with responses := (List.range a.verifiers.length).foldl (cleanOne a.sid) a.responses }

omit [Field F] [AddCommGroup G] [SMul F G] [DecidableEq G] in
/-- `add_response`, vss.rs:966-975. -/
def addResponse (a : Aggregator F G) (r : Response) : Aggregator F G × Res VssError Unit :=
  if (findPub a.verifiers r.index).isNone then (a, .err .complaintIndexOutOfBounds)
  else if (a.responses.get r.index).isSome then (a, .err .responseAlreadyExisting)
  else ({ a with responses := a.responses.insert r.index r }, .ok ())

/-- `verify_response`, vss.rs:919-934. -/
def verifyResponse (S : Suite F G) (a : Aggregator F G) (r : Response) :
    Aggregator F G × Res VssError Unit :=
  if r.sessionId ≠ a.sid then (a, .err .responseInconsistentSessionId)
  else match findPub a.verifiers r.index with
    | none => (a, .err .responseIndexOutOfBounds)
    | some pub =>
      match Schnorr.verify S pub (r.hash S) r.signature with
      | .ok () => a.addResponse r
      | .err e => (a, .err (.signature e))
      | .panic => (a, .panic)

/-- `verify_justification`, vss.rs:936-964: the response at the index of the justification is
replaced by an approval, if the deal verifies. -/
def verifyJustification (E : Env F G) (a : Aggregator F G) (j : Justification F G) :
    Aggregator F G × Res VssError Unit :=
  if (findPub a.verifiers j.index).isNone then (a, .err .justificationIndexOutOfBounds)
  else match a.responses.get j.index with
    | none => (a, .err .justificationNoComplaints)
    | some r =>
      if r.status = true then (a, .err .justificationForApproval)
      else
        let (a', verification) := a.verifyDeal E j.deal false
        match verification with
        | .panic => (a', .panic)
        | .err e => ({ a' with badDealer := true, responses := a'.responses.insert j.index r },
            .err e)
        | .ok () => ({ a' with responses := a'.responses.insert j.index { r with status := true } },
            .ok ())

omit [Field F] [AddCommGroup G] [SMul F G] [DecidableEq G] in
/-- `enough_approvals`, vss.rs:979-987; the order of iteration does not matter for a count. -/
def enoughApprovals (a : Aggregator F G) : Bool :=
  decide (a.t ≤ (a.responses.filter (fun e => e.2.status)).length)

omit [Field F] [AddCommGroup G] [SMul F G] [DecidableEq G] in
/-- `deal_certified`, vss.rs:991-1004. -/
def dealCertified (a : Aggregator F G) : Bool :=
  let verifiersUnstable :=
    ((List.range a.verifiers.length).filter (fun i => !a.responses.contains i)).length
  let tooMuchComplaints := decide (0 < verifiersUnstable) || a.badDealer
  a.enoughApprovals && !tooMuchComplaints

omit [Field F] [AddCommGroup G] [SMul F G] [DecidableEq G] in
/-- `unsafe_set_response_dkg`, vss.rs:1008-1017: the error of `add_response` is ignored. -/
def unsafeSetResponseDkg (a : Aggregator F G) (idx : Nat) (approval : Bool) : Aggregator F G :=
  (a.addResponse { sessionId := a.sid, index := idx, status := approval, signature := [] }).1

end Aggregator

/-- `Dealer`, vss.rs:53-70. -/
structure Dealer (F G : Type) where
  long : F
  pubb : G
  secret : F
  secretCommits : List G
  verifiers : List G
  hkdfContext : Bytes
  t : Nat
  sessionId : Bytes
  deals : List (Deal F G)
  aggregator : Aggregator F G
  deriving DecidableEq

section
variable [Field F] [AddCommGroup G] [SMul F G] [DecidableEq G]

/-- `new_dealer`, vss.rs:311-367; `fDraws`, `gDraws` are the random coefficients of the secret and
of the blinding polynomial (the latter includes its constant term). -/
def newDealer (E : Env F G) (longterm secret : F) (verifiers : List G) (t : Nat)
    (fDraws gDraws : List F) : Res VssError (Dealer F G) :=
  if validT t verifiers = false then .err .invalidThreshold
  else do
    let h := deriveH E verifiers
    let f ← Res.unwrap (newPriPoly t (some secret) fDraws)
    let g ← Res.unwrap (newPriPoly t none gDraws)
    let dPub := longterm • E.suite.base
    let fP := f.commit E.suite.base (some E.suite.base)
    let gP := g.commit E.suite.base (some h)
    let c ← (PubPoly.add fP gP).mapErr .poly
    let sid := VssP.sessionId E.suite dPub verifiers c.commits t
    let agg := newAggregator verifiers c.commits t sid
    let deals := (List.range verifiers.length).map (fun i =>
      ({ sessionId := sid, secShare := f.eval i, rndShare := g.eval i, t := t,
         commitments := c.commits } : Deal F G))
    .ok { long := longterm, pubb := dPub, secret := secret, secretCommits := fP.commits,
          verifiers := verifiers, hkdfContext := context E.suite dPub verifiers,
          t := t, sessionId := sid, deals := deals, aggregator := agg }

namespace Dealer

omit [DecidableEq G] [Field F] [AddCommGroup G] [SMul F G] in
/-- `plaintext_deal`, vss.rs:376-382. -/
def plaintextDeal (d : Dealer F G) (i : Nat) : Res VssError (Deal F G) :=
  Res.ofOption .dealerWrongIndex d.deals[i]?

omit [DecidableEq G] in
/-- `encrypted_deal`, vss.rs:391-415; `dhSecret` is the ephemeral key, `k` the signature nonce. -/
def encryptedDeal (E : Env F G) (d : Dealer F G) (i : Nat) (dhSecret k : F) :
    Res VssError (EncryptedDeal G) := do
  let vPub ← Res.ofOption .dealerWrongIndex (findPub d.verifiers i)
  let dhPublic := dhSecret • E.suite.base
  let signature := Schnorr.sign E.suite k d.long (E.suite.encG dhPublic)
  let pre := Dh.dhExchange dhSecret vPub
  let gcm ← (Dh.AEAD.new E.prims E.suite pre d.hkdfContext).mapErr .dh
  let nonce : Bytes := List.replicate Dh.nonceSize 0
  let deal ← Res.unwrap d.deals[i]?
  let c ← (gcm.seal_ E.prims none nonce (E.codec.enc deal) (some d.hkdfContext)).mapErr .dh
  .ok { dhkey := dhPublic, signature := signature, nonce := nonce, cipher := c.1 }

/-- `process_response` of the dealer, vss.rs:434-457; `k` is the signature nonce. -/
def processResponse (E : Env F G) (d : Dealer F G) (r : Response) (k : F) :
    Dealer F G × Res VssError (Option (Justification F G)) :=
  let (agg, res) := d.aggregator.verifyResponse E.suite r
  let d := { d with aggregator := agg }
  match res with
  | .err e => (d, .err e)
  | .panic => (d, .panic)
  | .ok () =>
    if r.status = true then (d, .ok none)
    else match d.deals[r.index]? with
      | none => (d, .panic)
      | some deal =>
        let j : Justification F G :=
          { sessionId := d.sessionId, index := r.index, deal := deal, signature := [] }
        (d, .ok (some { j with signature := Schnorr.sign E.suite k d.long (j.hash E) }))

omit [DecidableEq G] in
/-- `secret_commit`, vss.rs:462-467. -/
def secretCommit (S : Suite F G) (d : Dealer F G) : Option G :=
  if d.aggregator.enoughApprovals = false ∨ d.aggregator.dealCertified = false then none
  else some (d.secret • S.base)

omit [DecidableEq G] [Field F] [AddCommGroup G] [SMul F G] in
/-- `commits`, vss.rs:471-476. -/
def commits (d : Dealer F G) : Option (List G) :=
  if d.aggregator.enoughApprovals = false ∨ d.aggregator.dealCertified = false then none
  else some d.secretCommits

omit [DecidableEq G] [Field F] [AddCommGroup G] [SMul F G] in
/-- `set_timeout`, vss.rs:492-494. -/
def setTimeout (d : Dealer F G) : Dealer F G :=
  { d with aggregator := d.aggregator.cleanVerifiers }

end Dealer

/-- `Verifier`, vss.rs:506-515; there is no aggregator before the first deal. -/
structure Verifier (F G : Type) where
  longterm : F
  pubb : G
  dealer : G
  index : Nat
  verifiers : List G
  hkdfContext : Bytes
  aggregator : Option (Aggregator F G)
  deriving DecidableEq

/-- `new_verifier`, vss.rs:567-597: the index is the first position holding the own key. -/
def newVerifier (S : Suite F G) (longterm : F) (dealerKey : G) (verifiers : List G) :
    Res VssError (Verifier F G) :=
  let pubb := longterm • S.base
  match verifiers.findIdx? (fun v => decide (v = pubb)) with
  | none => .err .publicKeyNotFound
  | some index => .ok
      { longterm := longterm, pubb := pubb, dealer := dealerKey, index := index,
        verifiers := verifiers, hkdfContext := context S dealerKey verifiers,
        aggregator := none }

namespace Verifier

/-- `decrypt_deal`, vss.rs:684-704: the nonce must have 12 bytes, otherwise the conversion
panics. -/
def decryptDeal (E : Env F G) (v : Verifier F G) (e : EncryptedDeal G) :
    Res VssError (Deal F G) := do
  let _ ← (Schnorr.verify E.suite v.dealer (E.suite.encG e.dhkey) e.signature).mapErr .signature
  let pre := Dh.dhExchange v.longterm e.dhkey
  let gcm ← (Dh.AEAD.new E.prims E.suite pre v.hkdfContext).mapErr .dh
  if e.nonce.length ≠ Dh.nonceSize then .panic else
  let m ← (gcm.open_ E.prims none e.nonce e.cipher (some v.hkdfContext)).mapErr .dh
  Res.ofOption .marshalling (E.codec.dec m.1)

omit [Field F] [AddCommGroup G] [SMul F G] [DecidableEq G] in
/-- The aggregator that `process_encrypted_deal` works on, vss.rs:646-655: created on first use
with the session id written in the deal. -/
def aggregatorFor (v : Verifier F G) (d : Deal F G) : Aggregator F G :=
  v.aggregator.getD (newAggregator v.verifiers d.commitments d.t d.sessionId)

/-- `process_encrypted_deal` after decryption and the index check, vss.rs:636-681. -/
def processDeal (E : Env F G) (v : Verifier F G) (d : Deal F G) (k : F) :
    Verifier F G × Res VssError Response :=
  let sid := VssP.sessionId E.suite v.dealer v.verifiers d.commitments d.t
  let (agg, res) := (v.aggregatorFor d).verifyDeal E d true
  let reply (status : Bool) : Verifier F G × Res VssError Response :=
    let r : Response := { sessionId := sid, index := v.index, status := status, signature := [] }
    let r := { r with signature := Schnorr.sign E.suite k v.longterm (r.hash E.suite) }
    let (agg, res) := agg.addResponse r
    ({ v with aggregator := some agg }, res >>= fun _ => .ok r)
  match res with
  | .ok () => reply true
  | .err .dealAlreadyProcessed => ({ v with aggregator := some agg }, .err .dealAlreadyProcessed)
  | .err _ => reply false
  | .panic => ({ v with aggregator := some agg }, .panic)

/-- `process_encrypted_deal`, vss.rs:627-682; `k` is the nonce of the response's signature. -/
def processEncryptedDeal (E : Env F G) (v : Verifier F G) (e : EncryptedDeal G) (k : F) :
    Verifier F G × Res VssError Response :=
  match v.decryptDeal E e with
  | .err err => (v, .err err)
  | .panic => (v, .panic)
  | .ok d => if d.secShare.i ≠ v.index then (v, .err .dealWrongIndex) else v.processDeal E d k

/-- `process_response` of the verifier, vss.rs:710-715. -/
def processResponse (S : Suite F G) (v : Verifier F G) (r : Response) :
    Verifier F G × Res VssError Unit :=
  match v.aggregator with
  | some a => ({ v with aggregator := some (a.verifyResponse S r).1 }, (a.verifyResponse S r).2)
  | none => (v, .err .noAggregatorForVerifier)

/-- `process_justification`, vss.rs:733-738. -/
def processJustification (E : Env F G) (v : Verifier F G) (j : Justification F G) :
    Verifier F G × Res VssError Unit :=
  match v.aggregator with
  | some a => ({ v with aggregator := some (a.verifyJustification E j).1 },
      (a.verifyJustification E j).2)
  | none => (v, .err .missingAggregator)

omit [Field F] [AddCommGroup G] [SMul F G] [DecidableEq G] in
/-- `deal`, vss.rs:719-727. -/
def deal (v : Verifier F G) : Option (Deal F G) :=
  match v.aggregator with
  | none => none
  | some a => if a.enoughApprovals = false ∨ a.dealCertified = false then none else a.deal

omit [Field F] [AddCommGroup G] [SMul F G] [DecidableEq G] in
/-- `set_timeout`, vss.rs:760-764. -/
def setTimeout (v : Verifier F G) : Verifier F G :=
  { v with aggregator := v.aggregator.map Aggregator.cleanVerifiers }

omit [Field F] [AddCommGroup G] [SMul F G] [DecidableEq G] in
/-- A method of the aggregator called through `DerefMut`, vss.rs:607-611: panics without
aggregator, in which case nothing changes. -/
def onAggregator (v : Verifier F G) (f : Aggregator F G → Aggregator F G) : Verifier F G :=
  { v with aggregator := v.aggregator.map f }

end Verifier

omit [AddCommGroup G] [SMul F G] [DecidableEq G] in
/-- `recover_secret`, vss.rs:1072-1088. -/
def recoverSecret (ord : MapOrder) (deals : List (Deal F G)) (t : Nat) : Res VssError F :=
  match deals with
  | [] => (Poly.recoverSecret ord ([] : List (Option (Share F))) t).mapErr .poly
  | d0 :: _ =>
    if deals.all (fun d => decide (d.sessionId = d0.sessionId)) then
      (Poly.recoverSecret ord (deals.map (fun d => some d.secShare)) t).mapErr .poly
    else .err .dealsSameID

end

end Kyber.VssR
