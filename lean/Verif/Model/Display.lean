/-
Model of the text forms (`Debug`, `{:?}` without `#`, and `Display`, `{}`) of the objects that hold
secrets: poly.rs, key_pair.rs, eddsa_sig.rs, dss_sig.rs, both vss.rs, both dkg.rs, structs.rs.

The text forms of suites and points are parameters (`Fmt`). Hash maps print in the order in which
their entries are listed. The model of `Aggregator` does not keep the dealer's key, which is printed;
it is passed along.
-/
import Verif.Model.DkgPedersen
import Verif.Model.DkgRabin
import Verif.Model.Dss
import Verif.Model.Eddsa
import Mathlib.Data.Nat.Digits.Defs

namespace Kyber.Display

open Kyber Kyber.Poly

/-- A text. -/
abbrev Txt := List Char

/-- A literal. -/
def lit (s : String) : Txt := s.toList

/-- The text forms that the library is generic about: `Debug` and `Display` of the suite and of
points. -/
structure Fmt (G : Type) where
  suiteD : Txt
  suiteS : Txt
  ptD : G → Txt
  ptS : G → Txt

/-! ## Building blocks (standard library) -/

/-- An unsigned integer in decimal. -/
def dec (n : Nat) : Txt :=
  if n = 0 then ['0'] else (Nat.digits 10 n).reverse.map (fun d => Char.ofNat (48 + d))

/-- A `bool`. -/
def bool (b : Bool) : Txt := if b then lit "true" else lit "false"

/-- `[T]::join` on texts. -/
def join (sep : Txt) : List Txt → Txt
  | [] => []
  | [x] => x
  | x :: xs => x ++ sep ++ join sep xs

/-- `Formatter::debug_struct` with its fields, also `derive(Debug)`. -/
def dStruct (name : String) (fields : List (String × Txt)) : Txt :=
  if fields = [] then lit name
  else lit name ++ lit " { " ++ join (lit ", ") (fields.map fun f => lit f.1 ++ lit ": " ++ f.2) ++
    lit " }"

/-- `Debug` of slices and vectors. -/
def dList (xs : List Txt) : Txt := lit "[" ++ join (lit ", ") xs ++ lit "]"

/-- `Debug` of a byte vector. -/
def dBytes (b : Bytes) : Txt := dList (b.map fun x => dec x.toNat)

/-- `Debug` of `Option`. -/
def dOpt : Option Txt → Txt
  | none => lit "None"
  | some x => lit "Some(" ++ x ++ lit ")"

/-- `Debug` of a map. -/
def dMap (xs : List (Txt × Txt)) : Txt :=
  lit "{" ++ join (lit ", ") (xs.map fun e => e.1 ++ lit ": " ++ e.2) ++ lit "}"

/-- `hex::encode`. -/
def hex (b : Bytes) : Txt :=
  b.flatMap fun x => [Nat.digitChar (x.toNat / 16), Nat.digitChar (x.toNat % 16)]

/-- The `join(",")` of points used everywhere in `Display`. -/
def pts {G : Type} (A : Fmt G) (ps : List G) : Txt := join (lit ",") (ps.map A.ptS)

/-- The entries `(key, value)` of a map in `Display`. -/
def entries (xs : List (Nat × Txt)) : Txt :=
  join (lit ", ") (xs.map fun e => lit "(" ++ dec e.1 ++ lit ", " ++ e.2 ++ lit ")")

variable {F G : Type}

/-! ## poly.rs, key_pair.rs -/

/-- `Debug for PriShare`, poly.rs:43-47. -/
def priShareD (s : Share F) : Txt := dStruct "PriShare" [("i", dec s.i)]

/-- `Display for PriShare`, poly.rs:49-53. -/
def priShareS (s : Share F) : Txt := lit "PriShare( index: " ++ dec s.i ++ lit " )"

/-- `Debug for PriPoly`, poly.rs:74-78. -/
def priPolyD (A : Fmt G) (_p : PriPoly F) : Txt := dStruct "PriPoly" [("g", A.suiteD)]

/-- `Display for PriPoly`, poly.rs:80-84. -/
def priPolyS (A : Fmt G) (_p : PriPoly F) : Txt := lit "PriPoly( group: " ++ A.suiteS ++ lit " )"

/-- `PriPoly::string`, poly.rs:361-369, with the `Display` of scalars. -/
def priPolyString (sc : F → Txt) (p : PriPoly F) : Txt :=
  lit "[ " ++ join (lit ", ") (p.coeffs.map sc) ++ lit " ]"

/-- `derive(Debug)` of `PubPoly`, poly.rs:398-406. -/
def pubPolyD (A : Fmt G) (p : PubPoly G) : Txt :=
  dStruct "PubPoly" [("g", A.suiteD), ("b", dOpt (p.b.map A.ptD)), ("commits", dList (p.commits.map A.ptD))]

/-- `Display for PubPoly`, poly.rs:408-428. -/
def pubPolyS (A : Fmt G) (p : PubPoly G) : Txt :=
  lit "PubPoly( group: " ++ A.suiteS ++ lit "," ++ lit " base_point:" ++
  (match p.b with
    | some b => lit " Some(" ++ A.ptS b ++ lit "),"
    | none => lit " None,") ++
  lit " commits: [" ++ join (lit ", ") (p.commits.map A.ptS) ++ lit "] )"

/-- `Debug for Pair`, key_pair.rs:28-34; the private key is `_s`. -/
def pairD (A : Fmt G) (P : G) (_s : F) : Txt := dStruct "Pair" [("public", A.ptD P)]

/-- `Display for Pair`, key_pair.rs:36-40. -/
def pairS (A : Fmt G) (P : G) (_s : F) : Txt := lit "Pair( public_key: " ++ A.ptS P ++ lit " )"

/-! ## share/vss/pedersen/vss.rs -/

namespace P

open Kyber.VssP

/-- `Debug for Deal`, vss.rs:126-134. -/
def dealD (A : Fmt G) (d : Deal F G) : Txt :=
  dStruct "Deal" [("session_id", dBytes d.sessionId), ("t", dec d.t),
    ("commitments", dList (d.commitments.map A.ptD))]

/-- `Display for Deal`, vss.rs:136-152 (with its unbalanced parenthesis). -/
def dealS (A : Fmt G) (d : Deal F G) : Txt :=
  lit "Deal( session_id: 0x" ++ hex d.sessionId ++ lit ", threshold: " ++ dec d.t ++ lit ",)" ++
  lit " commitments: [" ++ pts A d.commitments ++ lit "] )"

/-- `derive(Debug)` of `Response`, vss.rs:198-208. -/
def responseD (r : Response) : Txt :=
  dStruct "Response" [("session_id", dBytes r.sessionId), ("index", dec r.index),
    ("status", bool r.status), ("signature", dBytes r.signature)]

/-- `Display for Response`, vss.rs:210-219. -/
def responseS (r : Response) : Txt :=
  lit "Response( session_id: 0x" ++ hex r.sessionId ++ lit ", index: " ++ dec r.index ++
  lit ", status: " ++ bool r.status ++ lit ", signature: 0x" ++ hex r.signature ++ lit " )"

/-- `derive(Debug)` of `Justification`, vss.rs:243-253. -/
def justD (A : Fmt G) (j : Justification F G) : Txt :=
  dStruct "Justification" [("session_id", dBytes j.sessionId), ("index", dec j.index),
    ("deal", dealD A j.deal), ("signature", dBytes j.signature)]

/-- `Display for Justification`, vss.rs:255-264. -/
def justS (A : Fmt G) (j : Justification F G) : Txt :=
  lit "Justification( session_id: 0x" ++ hex j.sessionId ++ lit ", index: " ++ dec j.index ++
  lit ", deal: " ++ dealS A j.deal ++ lit ", signature: 0x" ++ hex j.signature ++ lit " )"

/-- `derive(Debug)` of `Aggregator`, vss.rs:766-779. -/
def aggD (A : Fmt G) (dealer : G) (a : Aggregator F G) : Txt :=
  dStruct "Aggregator" [("suite", A.suiteD), ("dealer", A.ptD dealer),
    ("verifiers", dList (a.verifiers.map A.ptD)), ("commits", dList (a.commits.map A.ptD)),
    ("responses", dMap (a.responses.map fun e => (dec e.1, responseD e.2))),
    ("sid", dBytes a.sid), ("deal", dOpt (a.deal.map (dealD A))), ("t", dec a.t),
    ("bad_dealer", bool a.badDealer), ("timeout", bool a.timeout)]

/-- `Display for Aggregator`, vss.rs:781-828. -/
def aggS (A : Fmt G) (dealer : G) (a : Aggregator F G) : Txt :=
  lit "Aggregator ( suite: " ++ A.suiteS ++ lit ",  dealer: " ++ A.ptS dealer ++ lit "," ++
  lit " verifiers: [" ++ pts A a.verifiers ++ lit "]," ++
  lit " commits: [" ++ pts A a.commits ++ lit "]," ++
  lit " responses: [" ++ entries (a.responses.map fun e => (e.1, responseS e.2)) ++ lit "]," ++
  lit " session_id: 0x" ++ hex a.sid ++ lit "," ++ lit " deal: " ++
  (match a.deal with
    | some d => lit "Some(" ++ dealS A d ++ lit "),"
    | none => lit "None,") ++
  lit " threshold: " ++ dec a.t ++ lit ", bad_dealer: " ++ bool a.badDealer ++ lit ", timeout: " ++
  bool a.timeout ++ lit " )"

/-- `Debug for Dealer`, vss.rs:50-63. -/
def dealerD (A : Fmt G) (d : Dealer F G) : Txt :=
  dStruct "Dealer" [("suite", A.suiteD), ("pubb", A.ptD d.pubb),
    ("verifiers", dList (d.verifiers.map A.ptD)), ("hkdf_context", dBytes d.hkdfContext),
    ("t", dec d.t), ("session_id", dBytes d.sessionId), ("deals", dList (d.deals.map (dealD A))),
    ("aggregator", aggD A d.pubb d.aggregator)]

/-- `Display for Dealer`, vss.rs:65-96. -/
def dealerS (A : Fmt G) (d : Dealer F G) : Txt :=
  lit "Dealer( public_key: " ++ A.ptS d.pubb ++ lit "," ++
  lit " verifiers: [" ++ pts A d.verifiers ++ lit "]," ++
  lit " hkdf_context: 0x" ++ hex d.hkdfContext ++ lit ", threshold: " ++ dec d.t ++
  lit ", session_id: 0x" ++ hex d.sessionId ++ lit "," ++
  lit " deals: [" ++ join (lit ",") (d.deals.map (dealS A)) ++ lit "]," ++
  lit " aggregator: " ++ aggS A d.pubb d.aggregator ++ lit " )"

/-- `Debug for Verifier`, vss.rs:485-497. -/
def verifierD (A : Fmt G) (v : Verifier F G) : Txt :=
  dStruct "Verifier" [("suite", A.suiteD), ("pubb", A.ptD v.pubb), ("dealer", A.ptD v.dealer),
    ("index", dec v.index), ("verifiers", dList (v.verifiers.map A.ptD)),
    ("hkdf_context", dBytes v.hkdfContext), ("aggregator", dOpt (some (aggD A v.dealer v.aggregator)))]

/-- `Display for Verifier`, vss.rs:499-525. -/
def verifierS (A : Fmt G) (v : Verifier F G) : Txt :=
  lit "Verifier( suite: " ++ A.suiteS ++ lit ", pubb: " ++ A.ptS v.pubb ++ lit ", dealer: " ++
  A.ptS v.dealer ++ lit ", index: " ++ dec v.index ++ lit "," ++
  lit " verifiers: [" ++ pts A v.verifiers ++ lit "]," ++
  lit " hkdf_context: 0x" ++ hex v.hkdfContext ++ lit "," ++ lit " aggregator: " ++
  lit "Some(" ++ aggS A v.dealer v.aggregator ++ lit ") )"

end P

/-! ## share/vss/rabin/vss.rs -/

namespace R

open Kyber.VssR
open Kyber.VssP (Response)

/-- `Debug for Deal`, vss.rs:150-158. -/
def dealD (A : Fmt G) (d : Deal F G) : Txt :=
  dStruct "Deal" [("session_id", dBytes d.sessionId), ("t", dec d.t),
    ("commitments", dList (d.commitments.map A.ptD))]

/-- `Display for Deal`, vss.rs:160-178: the session identifier in `Debug` form. -/
def dealS (A : Fmt G) (d : Deal F G) : Txt :=
  lit "Deal( session_id: " ++ dBytes d.sessionId ++ lit ", threshold: " ++ dec d.t ++ lit "," ++
  lit " commitments: [" ++ pts A d.commitments ++ lit "] )"

/-- `derive(Debug)` of `Response`, vss.rs:229-239. -/
def responseD (r : Response) : Txt :=
  dStruct "Response" [("session_id", dBytes r.sessionId), ("index", dec r.index),
    ("approved", bool r.status), ("signature", dBytes r.signature)]

/-- `Display for Response`, vss.rs:241-250. -/
def responseS (r : Response) : Txt :=
  lit "Response( session_id: 0x" ++ hex r.sessionId ++ lit ", index: " ++ dec r.index ++
  lit ", approved: " ++ bool r.status ++ lit ", signature: 0x" ++ hex r.signature ++ lit " )"

/-- `derive(Debug)` of `Justification`, vss.rs:267-277. -/
def justD (A : Fmt G) (j : Justification F G) : Txt :=
  dStruct "Justification" [("session_id", dBytes j.sessionId), ("index", dec j.index),
    ("deal", dealD A j.deal), ("signature", dBytes j.signature)]

/-- `Display for Justification`, vss.rs:279-288. -/
def justS (A : Fmt G) (j : Justification F G) : Txt :=
  lit "Justification( session_id: 0x" ++ hex j.sessionId ++ lit ", index: " ++ dec j.index ++
  lit ", deal: " ++ dealS A j.deal ++ lit ", signature: 0x" ++ hex j.signature ++ lit " )"

/-- `derive(Debug)` of `Aggregator`, vss.rs:769-781. -/
def aggD (A : Fmt G) (dealer : G) (a : Aggregator F G) : Txt :=
  dStruct "Aggregator" [("suite", A.suiteD), ("dealer", A.ptD dealer),
    ("verifiers", dList (a.verifiers.map A.ptD)), ("commits", dList (a.commits.map A.ptD)),
    ("responses", dMap (a.responses.map fun e => (dec e.1, responseD e.2))),
    ("sid", dBytes a.sid), ("deal", dOpt (a.deal.map (dealD A))), ("t", dec a.t),
    ("bad_dealer", bool a.badDealer)]

/-- `Display for Aggregator`, vss.rs:783-830. -/
def aggS (A : Fmt G) (dealer : G) (a : Aggregator F G) : Txt :=
  lit "Aggregator ( suite: " ++ A.suiteS ++ lit ",  dealer: " ++ A.ptS dealer ++ lit "," ++
  lit " verifiers: [" ++ pts A a.verifiers ++ lit "]," ++
  lit " commits: [" ++ pts A a.commits ++ lit "]," ++
  lit " responses: [" ++ entries (a.responses.map fun e => (e.1, responseS e.2)) ++ lit "]," ++
  lit " session_id: 0x" ++ hex a.sid ++ lit "," ++ lit " deal: " ++
  (match a.deal with
    | some d => lit "Some(" ++ dealS A d ++ lit "),"
    | none => lit "None,") ++
  lit " threshold: " ++ dec a.t ++ lit ", bad_dealer: " ++ bool a.badDealer ++ lit " )"

/-- `Debug for Dealer`, vss.rs:72-85. -/
def dealerD (A : Fmt G) (d : Dealer F G) : Txt :=
  dStruct "Dealer" [("suite", A.suiteD), ("pubb", A.ptD d.pubb),
    ("verifiers", dList (d.verifiers.map A.ptD)), ("hkdf_context", dBytes d.hkdfContext),
    ("t", dec d.t), ("session_id", dBytes d.sessionId), ("deals", dList (d.deals.map (dealD A))),
    ("aggregator", aggD A d.pubb d.aggregator)]

/-- `Display for Dealer`, vss.rs:87-118. -/
def dealerS (A : Fmt G) (d : Dealer F G) : Txt :=
  lit "Dealer( public_key: " ++ A.ptS d.pubb ++ lit "," ++
  lit " verifiers: [" ++ pts A d.verifiers ++ lit "]," ++
  lit " hkdf_context: 0x" ++ hex d.hkdfContext ++ lit ", threshold: " ++ dec d.t ++
  lit ", session_id: 0x" ++ hex d.sessionId ++ lit "," ++
  lit " deals: [" ++ join (lit ",") (d.deals.map (dealS A)) ++ lit "]," ++
  lit " aggregator: " ++ aggS A d.pubb d.aggregator ++ lit " )"

/-- `Debug for Verifier`, vss.rs:517-529. -/
def verifierD (A : Fmt G) (v : Verifier F G) : Txt :=
  dStruct "Verifier" [("suite", A.suiteD), ("pubb", A.ptD v.pubb), ("dealer", A.ptD v.dealer),
    ("index", dec v.index), ("verifiers", dList (v.verifiers.map A.ptD)),
    ("hkdf_context", dBytes v.hkdfContext), ("aggregator", dOpt (v.aggregator.map (aggD A v.dealer)))]

/-- `Display for Verifier`, vss.rs:531-557. -/
def verifierS (A : Fmt G) (v : Verifier F G) : Txt :=
  lit "Verifier( suite: " ++ A.suiteS ++ lit ", pubb: " ++ A.ptS v.pubb ++ lit ", dealer: " ++
  A.ptS v.dealer ++ lit ", index: " ++ dec v.index ++ lit "," ++
  lit " verifiers: [" ++ pts A v.verifiers ++ lit "]," ++
  lit " hkdf_context: 0x" ++ hex v.hkdfContext ++ lit "," ++ lit " aggregator: " ++
  (match v.aggregator with
    | some a => lit "Some(" ++ aggS A v.dealer a ++ lit ") )"
    | none => lit "None )")

end R

/-! ## share/dkg/pedersen -/

namespace DP

open Kyber.DkgP

/-- `Debug for DistKeyShare`, structs.rs:30-36. -/
def shareD (A : Fmt G) (s : DistKeyShare F G) : Txt :=
  dStruct "DistKeyShare" [("commits", dList (s.commits.map A.ptD))]

/-- `Display for DistKeyShare`, structs.rs:38-51. -/
def shareS (A : Fmt G) (s : DistKeyShare F G) : Txt :=
  lit "DistKeyShare(" ++ lit " commits: [" ++ pts A s.commits ++ lit "] )"

/-- `derive(Debug)` of `Justification`, structs.rs:129-135. -/
def justD (A : Fmt G) (j : Justification F G) : Txt :=
  dStruct "Justification" [("index", dec j.index), ("justification", P.justD A j.justification)]

/-- `Display for Justification`, structs.rs:137-145. -/
def justS (A : Fmt G) (j : Justification F G) : Txt :=
  lit "Justification( index: " ++ dec j.index ++ lit ", justification: " ++
  P.justS A j.justification ++ lit " )"

/-- `Debug for Config`, dkg.rs:100-114; `reader` tells whether there is a reader, `only` is
`user_reader_only`. -/
def configD (A : Fmt G) (reader only : Bool) (c : Config F G) : Txt :=
  dStruct "Config" [("suite", A.suiteD), ("old_nodes", dList (c.oldNodes.map A.ptD)),
    ("public_coeffs", dOpt (c.publicCoeffs.map fun p => dList (p.map A.ptD))),
    ("new_nodes", dList (c.newNodes.map A.ptD)), ("share", dOpt (c.share.map (shareD A))),
    ("threshold", dec c.threshold), ("old_threshold", dec c.oldThreshold), ("reader", bool reader),
    ("user_reader_only", bool only)]

/-- `Display for Config`, dkg.rs:116-167. -/
def configS (A : Fmt G) (reader only : Bool) (c : Config F G) : Txt :=
  lit "Config( suite: " ++ A.suiteS ++ lit "," ++ lit " old_nodes: [" ++ pts A c.oldNodes ++ lit "]," ++
  (match c.publicCoeffs with
    | some p => lit "Some([" ++ pts A p ++ lit "]),"
    | none => lit "None,") ++
  lit " new_nodes: [" ++ pts A c.newNodes ++ lit "]," ++ lit " share: " ++
  (match c.share with
    | some s => lit "Some(" ++ shareS A s ++ lit ")"
    | none => lit "None") ++ lit "," ++
  lit "threshold: " ++ dec c.threshold ++ lit ", old_threshold: " ++ dec c.oldThreshold ++
  lit ", reader: " ++ bool reader ++ lit ", user_reader_only: " ++ bool only ++ lit " )"

/-- `Debug for DistKeyGenerator`, dkg.rs:208-231; `od` gives the dealer keys of the aggregators of
the old nodes. -/
def dkgD (A : Fmt G) (reader only : Bool) (od : Nat → G) (d : Dkg F G) : Txt :=
  dStruct "DistKeyGenerator" [("c", configD A reader only d.c), ("suite", A.suiteD),
    ("pubb", A.ptD d.pubb), ("dpub", pubPolyD A d.dpub), ("dealer", P.dealerD A d.dealer),
    ("verifiers", dMap (d.verifiers.map fun e => (dec e.1, P.verifierD A e.2))),
    ("old_aggregators", dMap (d.oldAggregators.map fun e => (dec e.1, P.aggD A (od e.1) e.2))),
    ("oidx", dec d.oidx), ("nidx", dec d.nidx), ("old_t", dec d.oldT), ("new_t", dec d.newT),
    ("is_resharing", bool d.isResharing), ("can_issue", bool d.canIssue),
    ("can_receive", bool d.canReceive), ("new_present", bool d.newPresent),
    ("old_present", bool d.oldPresent), ("processed", bool d.processed), ("timeout", bool d.timeout)]

/-- `Display for DistKeyGenerator`, dkg.rs:233-277. -/
def dkgS (A : Fmt G) (reader only : Bool) (od : Nat → G) (d : Dkg F G) : Txt :=
  lit "DistKeyGenerator( config: " ++ configS A reader only d.c ++ lit ", suite: " ++ A.suiteS ++
  lit ", public_key: " ++ A.ptS d.pubb ++ lit ", distributed_public_key: " ++ pubPolyS A d.dpub ++
  lit ",\n            dealer: " ++ P.dealerS A d.dealer ++ lit "," ++
  lit " verifiers: [" ++ entries (d.verifiers.map fun e => (e.1, P.verifierS A e.2)) ++ lit "]," ++
  lit " old_aggregators: [" ++
  entries (d.oldAggregators.map fun e => (e.1, P.aggS A (od e.1) e.2)) ++ lit "]," ++
  lit " old_index: " ++ dec d.oidx ++ lit ", new_index: " ++ dec d.nidx ++ lit ", old_threshold: " ++
  dec d.oldT ++ lit ", new_threshold: " ++ dec d.newT ++ lit ", is_resharing: " ++
  bool d.isResharing ++ lit ", can_issue: " ++ bool d.canIssue ++ lit ", can_receive: " ++
  bool d.canReceive ++ lit ", new_present: " ++ bool d.newPresent ++ lit ", old_present: " ++
  bool d.oldPresent ++ lit ", processed: " ++ bool d.processed ++ lit ", timeout: " ++
  bool d.timeout ++ lit " )"

end DP

/-! ## share/dkg/rabin -/

namespace DR

open Kyber.DkgR

/-- `Debug for DistKeyShare`, dkg.rs:68-74. -/
def shareD (A : Fmt G) (s : DistKeyShare F G) : Txt :=
  dStruct "DistKeyShare" [("commits", dList (s.commits.map A.ptD))]

/-- `Display for DistKeyShare`, dkg.rs:76-89. -/
def shareS (A : Fmt G) (s : DistKeyShare F G) : Txt :=
  lit "DistKeyShare(" ++ lit " commits: [" ++ pts A s.commits ++ lit "] )"

/-- `derive(Debug)` of `ComplaintCommits`, dkg.rs:223-235. -/
def complaintD (A : Fmt G) (c : ComplaintCommits F G) : Txt :=
  dStruct "ComplaintCommits" [("index", dec c.index), ("dealer_index", dec c.dealerIndex),
    ("deal", R.dealD A c.deal), ("signature", dBytes c.signature)]

/-- `Display for ComplaintCommits`, dkg.rs:237-248. -/
def complaintS (A : Fmt G) (c : ComplaintCommits F G) : Txt :=
  lit "ComplaintCommits( index: " ++ dec c.index ++ lit ", dealer_index: " ++ dec c.dealerIndex ++
  lit ", deal: " ++ R.dealS A c.deal ++ lit ", signature: 0x" ++ hex c.signature ++ lit " )"

/-- `Debug for ReconstructCommits`, dkg.rs:279-288. -/
def reconstructD (r : ReconstructCommits F) : Txt :=
  dStruct "ReconstructCommits" [("session_id", dBytes r.sessionId), ("index", dec r.index),
    ("dealer_index", dec r.dealerIndex), ("signature", dBytes r.signature)]

/-- `Display for ReconstructCommits`, dkg.rs:290-301. -/
def reconstructS (r : ReconstructCommits F) : Txt :=
  lit "ReconstructCommits( session_id: 0x" ++ hex r.sessionId ++ lit ", index: " ++ dec r.index ++
  lit ", dealer_index: " ++ dec r.dealerIndex ++ lit ", signature: 0x" ++ hex r.signature ++ lit " )"

/-- `Debug for DistKeyGenerator`, dkg.rs:342-357. -/
def dkgD (A : Fmt G) (d : Dkg F G) : Txt :=
  dStruct "DistKeyGenerator" [("suite", A.suiteD), ("index", dec d.index), ("pubb", A.ptD d.pubb),
    ("participants", dList (d.participants.map A.ptD)), ("t", dec d.t),
    ("dealer", R.dealerD A d.dealer),
    ("verifiers", dMap (d.verifiers.map fun e => (dec e.1, R.verifierD A e.2))),
    ("commitments", dMap (d.commitments.map fun e => (dec e.1, pubPolyD A e.2))),
    ("pending_reconstruct",
      dMap (d.pendingReconstruct.map fun e => (dec e.1, dList (e.2.map reconstructD)))),
    ("reconstructed", dMap (d.reconstructed.map fun e => (dec e.1, bool e.2)))]

/-- `Display for DistKeyGenerator`, dkg.rs:359-420. -/
def dkgS (A : Fmt G) (d : Dkg F G) : Txt :=
  lit "DistKeyGenerator( suite: " ++ A.suiteS ++ lit ", index: " ++ dec d.index ++ lit ", public: " ++
  A.ptS d.pubb ++ lit "," ++ lit " participants: [" ++ pts A d.participants ++ lit "]," ++
  lit " threshold: " ++ dec d.t ++ lit ", dealer: " ++ R.dealerS A d.dealer ++ lit "," ++
  lit " verifiers: [" ++ entries (d.verifiers.map fun e => (e.1, R.verifierS A e.2)) ++ lit "]," ++
  lit " commitments: [" ++ entries (d.commitments.map fun e => (e.1, pubPolyS A e.2)) ++ lit "]," ++
  lit " pending_reconstruct: [" ++
  entries (d.pendingReconstruct.map fun e =>
    (e.1, lit "[" ++ join (lit ", ") (e.2.map reconstructS) ++ lit "]")) ++ lit "]," ++
  lit " reconstructed: [" ++ entries (d.reconstructed.map fun e => (e.1, bool e.2)) ++ lit "] )"

end DR

/-! ## sign -/

namespace Sig

open Kyber.Dss Kyber.Eddsa

/-- `Debug for DSS`, dss_sig.rs:63-80. -/
def dssD (A : Fmt G) (base : G) (d : DSS F G) : Txt :=
  dStruct "DSS" [("suite", A.suiteD), ("public", A.ptD d.pub), ("index", dec d.index),
    ("participants", dList (d.participants.map A.ptD)), ("t", dec d.t),
    ("long_poly", pubPolyD A ⟨some base, d.long.commits⟩),
    ("random_poly", pubPolyD A ⟨some base, d.random.commits⟩), ("msg", dBytes d.msg),
    ("partials", dList (d.partials.map fun p => dOpt (p.map priShareD))),
    ("partials_idx", dMap (d.partialsIdx.map fun e => (dec e.1, bool e.2))),
    ("signed", bool d.signed), ("session_id", dBytes d.sessionId)]

/-- One entry of the list of partial signatures in `Display for DSS`, dss_sig.rs:82-136. -/
def partialS (p : Option (Share F)) : Txt :=
  match p with
  | some s => lit "Some(" ++ priShareS s ++ lit ")"
  | none => lit "None"

/-- `Display for DSS`, dss_sig.rs:82-136. -/
def dssS (A : Fmt G) (base : G) (d : DSS F G) : Txt :=
  lit "DSS( suite: " ++ A.suiteS ++ lit ", public_key: " ++ A.ptS d.pub ++ lit ", index: " ++
  dec d.index ++ lit "," ++ lit " participants: [" ++ pts A d.participants ++ lit "]," ++
  lit "threshold: " ++ dec d.t ++ lit ", long_polynomial: " ++
  pubPolyS A ⟨some base, d.long.commits⟩ ++ lit ", random_polynomial: " ++
  pubPolyS A ⟨some base, d.random.commits⟩ ++ lit ", message: 0x" ++ hex d.msg ++ lit "," ++
  lit " partials: [" ++ join (lit ",") (d.partials.map partialS) ++ lit "]," ++
  lit " partials_indexes: [" ++ entries (d.partialsIdx.map fun e => (e.1, bool e.2)) ++ lit "]," ++
  lit "signed: " ++ bool d.signed ++ lit ", session_id: 0x" ++ hex d.sessionId ++ lit " )"

/-- `derive(Debug)` of `PartialSig`, dss_sig.rs:140-145. -/
def partialSigD (p : PartialSig F) : Txt :=
  dStruct "PartialSig" [("partial", priShareD p.partialShare), ("session_id", dBytes p.sessionId),
    ("signature", dBytes p.signature)]

/-- `derive(Debug)` of the edwards25519 `Scalar`, scalar.rs:23-26. -/
def scalarD (v : Bytes) : Txt := dStruct "Scalar" [("v", dBytes v)]

/-- `derive(Debug)` of `EdDSA`, eddsa_sig.rs:17-26. -/
def eddsaD (sc : F → Txt) (A : Fmt G) (e : EdDSA F G) : Txt :=
  dStruct "EdDSA" [("secret", sc e.secret), ("public", A.ptD e.pub), ("seed", dBytes e.seed),
    ("prefix", dBytes e.prefix_)]

end Sig

end Kyber.Display
