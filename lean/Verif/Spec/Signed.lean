/-
What the long-term key of a participant signs in the protocols.
-/
import Verif.Model.Bincode
import Verif.Model.Dss
import Verif.Spec.Apart

namespace Kyber.Spec

open Kyber Kyber.Poly Kyber.VssP

/-- One constructor for each kind of message that is signed with a long-term key: the key of an encrypted deal
(pedersen/vss.rs:368, rabin/vss.rs:398), a response (pedersen/vss.rs:630, dkg.rs:565, rabin/vss.rs:674), a
justification (pedersen/vss.rs:422, rabin/vss.rs:453), the deal of the Pedersen DKG (pedersen/dkg.rs:483), the
messages of the second phase of the Rabin DKG (rabin/dkg.rs:668, 732, 798) and a partial signature
(dss_sig.rs:230). -/
inductive SignedMsg (F G : Type) where
  | dealKey (key : G)
  | response (r : Response)
  | justification (j : VssP.Justification F G)
  | justificationRabin (j : VssR.Justification F G)
  | distDeal (index : Nat) (e : EncryptedDeal G)
  | secretCommits (m : DkgR.SecretCommits G)
  | complaintCommits (m : DkgR.ComplaintCommits F G)
  | reconstructCommits (m : DkgR.ReconstructCommits F)
  | partialSig (s : Share F) (sid : Bytes)

/-- The kinds; a justification is one kind for both secret sharings. -/
inductive SignedKind where
  | dealKey | response | justification | distDeal | secretCommits | complaintCommits | reconstructCommits | partialSig
  deriving DecidableEq

namespace SignedMsg

variable {F G : Type}

def kind : SignedMsg F G → SignedKind
  | .dealKey _ => .dealKey
  | .response _ => .response
  | .justification _ => .justification
  | .justificationRabin _ => .justification
  | .distDeal _ _ => .distDeal
  | .secretCommits _ => .secretCommits
  | .complaintCommits _ => .complaintCommits
  | .reconstructCommits _ => .reconstructCommits
  | .partialSig _ _ => .partialSig

/-- The bytes given to `schnorr::sign` and `schnorr::verify`, with deals in their binary form. -/
def msg (S : Suite F G) (D : Dh.Prims) (pf : Bytes → G) (B : Bin F) (P : Bin G) : SignedMsg F G → Bytes
  | .dealKey key => S.encG key
  | .response r => r.hash S
  | .justification j => j.hash ⟨S, D, VssP.binCodec B P⟩
  | .justificationRabin j => j.hash ⟨S, D, VssR.binCodec B P, pf⟩
  | .distDeal i e => DkgP.encDist P i e
  | .secretCommits m => m.hash S
  | .complaintCommits m => m.hash ⟨S, D, VssR.binCodec B P, pf⟩
  | .reconstructCommits m => m.hash S
  | .partialSig s sid => Dss.partialHash S s sid

/-- What is hashed for the message that is signed, where a hash is signed. -/
def input (S : Suite F G) (B : Bin F) (P : Bin G) : SignedMsg F G → Option Bytes
  | .dealKey _ => none
  | .response r =>
    some (ascii "response" ++ r.sessionId ++ u32le r.index ++ u32le (if r.status then 1 else 0))
  | .justification j => some (ascii "justification" ++ j.sessionId ++ u32le j.index ++ (VssP.binDeal B P).ser j.deal)
  | .justificationRabin j =>
    some (ascii "justification" ++ j.sessionId ++ u32le j.index ++ (VssR.binDeal B P).ser j.deal)
  | .distDeal _ _ => none
  | .secretCommits m => some (ascii "secretcommits" ++ u32le m.index ++ (m.commitments.map S.encG).flatten)
  | .complaintCommits m =>
    some (ascii "commitcomplaint" ++ u32le m.index ++ u32le m.dealerIndex ++ (VssR.binDeal B P).ser m.deal)
  | .reconstructCommits m =>
    some (ascii "reconstructcommits" ++ u32le m.index ++ u32le m.dealerIndex ++ S.hash (S.encS m.share.v ++
      u32le m.share.i))
  | .partialSig s sid => some (S.hash (S.encS s.v ++ u32le s.i) ++ sid)

/-- The session ids in the message are as long as the ones in use: a response, a justification and a partial
signature with another session id are refused. -/
def Sized : SignedMsg F G → Prop
  | .response r => r.sessionId.length = 32
  | .justification j => j.sessionId.length = 32
  | .justificationRabin j => j.sessionId.length = 32
  | .partialSig _ sid => sid.length = 32
  | _ => True

end SignedMsg

end Kyber.Spec
