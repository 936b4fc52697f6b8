/-
C156: a participant of a key generation that obtained its key share keeps it.
-/
import Verif.Props.DkgPedersen
import Verif.Props.AgreementPedersen
import Verif.Props.DkgPedersenReshare
import Verif.Props.DkgReshareHonest

namespace Kyber.Props

open Kyber Kyber.Poly Kyber.Spec Kyber.VssP Kyber.DkgP

/-- The full property: in every run of a participant of a fresh Pedersen DKG, once `dist_key_share` gave a key share, it
gives the same after all later calls. -/
def C156_statement : Prop :=
  ∀ (F G : Type) (_ : Field F) (_ : AddCommGroup G) (_ : SMul F G) (_ : DecidableEq G) (E : DkgEnv F G) (x : F)
    (ps : List G) (t : Nat) (secret : F) (draws : List F) (d0 : Dkg F G)
    (_ : newDistKeyGenerator E.suite x ps t secret draws = .ok d0) (cs cs' : List (DCall F G)) (ord ord' : MapOrder)
    (k : DistKeyShare F G), (dRun E d0 cs).distKeyShare E.suite ord = .ok k →
    (dRun E d0 (cs ++ cs')).distKeyShare E.suite ord' = .ok k

variable {F G : Type} [Field F] [AddCommGroup G] [SMul F G] [DecidableEq G]

/-- Nothing that arrives later matters for the deal: it is there and everybody has approved it, or it is refused for
good, because the dealer was caught or somebody complained. -/
def Settled (a : Aggregator F G) : Prop :=
  (a.deal.isSome ∧ ∀ i < a.verifiers.length, ∃ r, a.responses.get i = some r ∧ r.status = true) ∨
  a.badDealer = true ∨ ∃ i < a.verifiers.length, ∃ r, a.responses.get i = some r ∧ r.status = false

namespace KeyStable

/-- All approvals are there, and the deal. -/
structure Closed (a : Aggregator F G) : Prop where
  all : ∀ i < a.verifiers.length, ∃ r, a.responses.get i = some r ∧ r.status = true
  deal : a.deal.isSome

theorem Closed.addResponse {a : Aggregator F G} (h : Closed a) (r : VssP.Response) : (a.addResponse r).1 = a := by
  rcases addResponse_cases a r with ⟨e, ha⟩ | ⟨hp, hn, -⟩
  · rw [ha]
  · obtain ⟨q, hq, -⟩ := h.all r.index hp
    rw [hq] at hn
    cases hn

theorem Closed.step (E : Env F G) {v : Verifier F G} (h : Closed v.aggregator) (d : Dkg F G) (i : Nat) (c : VCall F G)
    (hc : Allowed d i c) :
    (vStep E v c).aggregator = v.aggregator ∨ (vStep E v c).aggregator = v.aggregator.setTimeout := by
  cases c with
  | encDeal e k =>
    obtain ⟨q, hq⟩ := Option.isSome_iff_exists.1 h.deal
    left
    show (v.processEncryptedDeal E e k).1.aggregator = _
    rw [(C25_second_deal_refused E v q hq e k).1]
  | response r =>
    left
    show (v.aggregator.verifyResponse E.suite r).1 = _
    rcases verifyResponse_cases E.suite v.aggregator r with ⟨e, h'⟩ | h' | ⟨pub, -, -, -, h'⟩
    · rw [h']
    · rw [h']
    · rw [h', h.addResponse]
  | justification j =>
    left
    show (v.aggregator.verifyJustification E.suite j).1 = _
    unfold Aggregator.verifyJustification
    split
    · rfl
    · next hp =>
      have hlt : j.index < v.aggregator.verifiers.length := by
        by_contra hlt
        exact hp (by rw [VssP.findPub, List.getElem?_eq_none (by omega)]; rfl)
      obtain ⟨r, hr, hs⟩ := h.all j.index hlt
      rw [hr]
      simp [hs, statusComplaint]
  | timeout => exact .inr rfl
  | setThreshold t => exact hc.elim
  | unsafeSet idx b => exact .inl (h.addResponse _)
  | verifyDeal d b => exact hc.elim
  | addResponse r => exact hc.elim

theorem Closed.run (E : Env F G) (d : Dkg F G) (i : Nat) (cs : List (VCall F G)) : ∀ {v : Verifier F G},
    Closed v.aggregator → (∀ c ∈ cs, Allowed d i c) →
    (vRun E v cs).aggregator = v.aggregator ∨ (vRun E v cs).aggregator = v.aggregator.setTimeout := by
  induction cs with
  | nil => exact fun _ _ => .inl rfl
  | cons c cs ih =>
    intro v h hc
    have hs := h.step E d i c (hc c (by simp))
    have h' : Closed (vStep E v c).aggregator := by
      rcases hs with e | e <;> rw [e]
      · exact h
      · exact ⟨h.all, h.deal⟩
    rcases ih h' (fun c hcs => hc c (by simp [hcs])) with e | e
    · rcases hs with e' | e'
      · exact .inl (e.trans e')
      · exact .inr (e.trans e')
    · rcases hs with e' | e'
      · exact .inr (e.trans (by rw [e']))
      · exact .inr (e.trans (by rw [e']; rfl))

theorem Closed.certified {a : Aggregator F G} (h : Closed a) :
    a.setTimeout.dealCertified = a.dealCertified := by
  have hm : missing a.responses a.verifiers.length = ∅ := by
    unfold missing
    rw [Finset.filter_eq_empty_iff]
    intro i hi hn
    obtain ⟨r, hr, -⟩ := h.all i (Finset.mem_range.1 hi)
    rw [hr] at hn
    cases hn
  have hcard : (approvedBy a.responses a.verifiers.length).card = a.verifiers.length := by
    unfold approvedBy
    rw [Finset.filter_true_of_mem (fun i hi => h.all i (Finset.mem_range.1 hi)), Finset.card_range]
  rw [Bool.eq_iff_iff, C23_certified_iff, C23_certified_iff]
  show (a.badDealer = false ∧ a.t ≤ (approvedBy a.responses a.verifiers.length).card ∧
    complainedBy a.responses a.verifiers.length = ∅ ∧ (if true = true then
      (missing a.responses a.verifiers.length).card + a.t ≤ a.verifiers.length else _)) ↔ _
  rw [if_pos rfl, hm, hcard, Finset.card_empty, Nat.zero_add]
  constructor
  · rintro ⟨h1, h2, h3, -⟩
    refine ⟨h1, h2, h3, ?_⟩
    split
    · exact h2
    · rfl
  · rintro ⟨h1, h2, h3, -⟩
    exact ⟨h1, h2, h3, h2⟩

theorem refused {a : Aggregator F G} (h : a.badDealer = true ∨
    ∃ i < a.verifiers.length, ∃ r, a.responses.get i = some r ∧ r.status = false) : a.dealCertified = false := by
  rw [← Bool.not_eq_true, C23_certified_iff]
  rintro ⟨h1, -, h3, -⟩
  rcases h with h | ⟨i, hi, r, hr, hs⟩
  · rw [h] at h1; cases h1
  · have : i ∈ complainedBy a.responses a.verifiers.length :=
      Finset.mem_filter.2 ⟨Finset.mem_range.2 hi, r, hr, hs⟩
    rw [h3] at this
    simp at this

/-- What later calls leave as it is when every deal is settled. -/
theorem stable (E : DkgEnv F G) (d0 : Dkg F G) (cs cs' : List (DCall F G))
    (hs : ∀ i v, (dRun E d0 cs).verifiers.get i = some v → Settled v.aggregator) :
    (∀ i, Qualified (dRun E d0 (cs ++ cs')) i ↔ Qualified (dRun E d0 cs) i) ∧
    ∀ i v, (dRun E d0 cs).verifiers.get i = some v → ∃ v', (dRun E d0 (cs ++ cs')).verifiers.get i = some v' ∧
      ∀ q, v.aggregator.deal = some q → v'.aggregator.deal = some q := by
  have hrun : dRun E d0 (cs ++ cs') = dRun E (dRun E d0 cs) cs' := by
    unfold dRun; rw [List.foldl_append]
  set d := dRun E d0 cs with hd
  have hev : Evolves E d (dRun E d0 (cs ++ cs')) := by rw [hrun]; exact dRun_evolves E d cs'
  have hver : ∀ i v, d.verifiers.get i = some v → ∃ v', (dRun E d0 (cs ++ cs')).verifiers.get i = some v' ∧
      v'.aggregator.dealCertified = v.aggregator.dealCertified ∧
      (∀ q, v.aggregator.deal = some q → v'.aggregator.deal = some q) := by
    intro i v hv
    obtain ⟨vcs, hal, hv'⟩ := hev.ver i v hv
    have hext := vRun_ext E.toEnv v vcs
    refine ⟨_, hv', ?_, fun q hq => hext.deal q hq⟩
    rcases hs i v hv with ⟨hdl, hall⟩ | h
    · have hcl : Closed v.aggregator := ⟨hall, hdl⟩
      rcases hcl.run E.toEnv d i vcs hal with e | e
      · rw [e]
      · rw [e, hcl.certified]
    · rw [refused h]
      refine refused ?_
      rcases h with h | ⟨l, hl, r, hr, hst⟩
      · exact .inl (hext.bad h)
      · exact .inr ⟨l, by rw [hext.verifiers]; exact hl, r, hext.responses l r hr, hst⟩
  refine ⟨fun i => ?_, fun i v hv => ?_⟩
  · constructor
    · rintro ⟨v', hv', hc⟩
      have hmem : d.verifiers.get i ≠ none := by
        intro hnone
        have hk' : i ∉ d.verifiers.keys := by
          rw [← AMap.get_eq_none]; exact hnone
        rw [← hev.keys, ← AMap.get_eq_none, hv'] at hk'
        cases hk'
      obtain ⟨v, hv⟩ := Option.ne_none_iff_exists'.1 hmem
      obtain ⟨w, hw, e, -⟩ := hver i v hv
      rw [hv'] at hw
      cases hw
      exact ⟨v, hv, e.symm.trans hc⟩
    · rintro ⟨v, hv, hc⟩
      obtain ⟨v', hv', e, -⟩ := hver i v hv
      exact ⟨v', hv', e.trans hc⟩
  · obtain ⟨v', hv', -, h⟩ := hver i v hv
    exact ⟨v', hv', h⟩

end KeyStable

open KeyStable in
/-- C156, what holds: if the share was obtained when, of each dealer, all approvals had arrived together with the deal,
or the deal was refused for good, by a complaint or a bad justification, then it stays the same whatever comes later,
also after a timeout. Missing: keys obtained earlier, see `C156_violated` and `C156_violated_late`. -/
theorem C156_settled_partial (E : DkgEnv F G) (x : F) (ps : List G) (t : Nat) (secret : F) (draws : List F)
    (d0 : Dkg F G) (h0 : newDistKeyGenerator E.suite x ps t secret draws = .ok d0) (cs cs' : List (DCall F G))
    (ord ord' : MapOrder) (k : DistKeyShare F G) (hk : (dRun E d0 cs).distKeyShare E.suite ord = .ok k)
    (hs : ∀ i v, (dRun E d0 cs).verifiers.get i = some v → Settled v.aggregator) :
    (dRun E d0 (cs ++ cs')).distKeyShare E.suite ord' = .ok k := by
  have hn : (dRun E d0 cs).verifiers.keys.Nodup := reach_nodup h0 E cs
  have hQ : ∀ i, i ∈ qualSet (dRun E d0 cs) ↔ Qualified (dRun E d0 cs) i := fun i => mem_qualSet hn
  obtain ⟨h1, h2, D, len, h3, h4⟩ := (C33_dist_key_share_iff E x ps t secret draws d0 h0 cs ord k _ hQ).1 hk
  obtain ⟨hq, hdl⟩ := stable E d0 cs cs' hs
  refine (C33_dist_key_share_iff E x ps t secret draws d0 h0 (cs ++ cs') ord' k _
    (fun i => (hQ i).trans (hq i).symm)).2 ⟨h1, h2, D, len, fun i hi => ?_, h4⟩
  obtain ⟨v, hv, hq, hl⟩ := h3 i hi
  obtain ⟨v', hv', hd⟩ := hdl i v hv
  exact ⟨v', hv', hd _ hq, hl⟩

/-- C156: who waits for `certified` and then obtains its share keeps it. -/
theorem C156_certified_partial (E : DkgEnv F G) (x : F) (ps : List G) (hnd : ps.Nodup) (t : Nat) (secret : F)
    (draws : List F) (d0 : Dkg F G) (h0 : newDistKeyGenerator E.suite x ps t secret draws = .ok d0)
    (cs cs' : List (DCall F G)) (ord ord' : MapOrder) (k : DistKeyShare F G)
    (hk : (dRun E d0 cs).distKeyShare E.suite ord = .ok k) (hc : (dRun E d0 cs).certified ord = true) :
    (dRun E d0 (cs ++ cs')).distKeyShare E.suite ord' = .ok k := by
  have h0' : newDistKeyHandler E.suite ⟨x, [], none, ps, none, t, 0⟩ secret draws = .ok d0 := h0
  have hst := newDistKeyHandler_ok h0'
  have hp : d0.newPresent = true := by
    by_contra hp
    rw [Bool.not_eq_true] at hp
    have h1 := hst.nidx
    have h2 := h0'
    unfold newDistKeyHandler at h2
    rw [Res.ite_err_eq_ok] at h2
    simp only at h2
    rw [Res.ite_err_eq_ok, Res.ite_err_eq_ok, Res.ite_err_eq_ok] at h2
    refine h2.2.2.2.1 ⟨rfl, ?_⟩
    simp only at h1
    rw [h1]; exact hp
  have hold : d0.c.oldNodes = ps := (hst.fresh hst.resharing hp).1
  have hev := dRun_evolves E d0 cs
  have hall := (C36_certified E _ secret draws d0 h0' hp (by rw [hold]; exact hnd) cs ord).1 hc
  have hn : (dRun E d0 cs).verifiers.keys.Nodup := reach_nodup h0 E cs
  have hQ : ∀ i, i ∈ qualSet (dRun E d0 cs) ↔ Qualified (dRun E d0 cs) i := fun i => mem_qualSet hn
  obtain ⟨-, -, D, len, h3, -⟩ := (C33_dist_key_share_iff E x ps t secret draws d0 h0 cs ord k _ hQ).1 hk
  refine C156_settled_partial E x ps t secret draws d0 h0 cs cs' ord ord' k hk (fun i v hv => .inl ?_)
  have hi : i < (dRun E d0 cs).c.oldNodes.length := by
    have hm : i ∈ (dRun E d0 cs).verifiers.keys := by
      by_contra hm
      rw [← AMap.get_eq_none, hv] at hm
      cases hm
    rw [hev.keys, (newDistKeyHandler_ok h0').verifiers, if_pos ⟨hp, by rw [hold]; exact hnd⟩, startVers_keys] at hm
    rw [hev.c]
    exact List.mem_range.1 hm
  obtain ⟨w, hw, hcert, hm⟩ := hall i hi
  rw [hv] at hw
  cases hw
  obtain ⟨w, hw, hd, -⟩ := h3 i ((hQ i).2 ⟨v, hv, hcert⟩)
  rw [hv] at hw
  cases hw
  refine ⟨by rw [hd]; rfl, fun l hl => ?_⟩
  obtain ⟨-, -, hcomp, -⟩ := (C23_certified_iff v.aggregator).1 hcert
  cases hg : v.aggregator.responses.get l with
  | none =>
    have : l ∈ missing v.aggregator.responses v.aggregator.verifiers.length :=
      Finset.mem_filter.2 ⟨Finset.mem_range.2 hl, hg⟩
    rw [hm] at this
    simp at this
  | some r =>
    refine ⟨r, rfl, ?_⟩
    by_contra hst
    have : l ∈ complainedBy v.aggregator.responses v.aggregator.verifiers.length :=
      Finset.mem_filter.2 ⟨Finset.mem_range.2 hl, r, hg, by simpa using hst⟩
    rw [hcomp] at this
    simp at this

open KeyStable in
/-- C156 for a resharing: a new node that obtained its share when every deal was settled keeps it. -/
theorem C156_resharing_partial (E : DkgEnv F G) (c : Config F G) (secret : F) (draws : List F) (d0 : Dkg F G)
    (h0 : newDistKeyHandler E.suite c secret draws = .ok d0) (hre : d0.isResharing = true)
    (hp : d0.newPresent = true) (coeffs : List G) (hco : d0.c.publicCoeffs = some coeffs) (hne : coeffs ≠ [])
    (cs cs' : List (DCall F G)) (ord ord' : MapOrder) (k : DistKeyShare F G)
    (hk : (dRun E d0 cs).distKeyShare E.suite ord = .ok k)
    (hs : ∀ i v, (dRun E d0 cs).verifiers.get i = some v → Settled v.aggregator) :
    (dRun E d0 (cs ++ cs')).distKeyShare E.suite ord' = .ok k := by
  have hn : (dRun E d0 cs).verifiers.keys.Nodup := reach_nodup h0 E cs
  have hQ : ∀ i, i ∈ qualSet (dRun E d0 cs) ↔ Qualified (dRun E d0 cs) i := fun i => mem_qualSet hn
  obtain ⟨hq, hdl⟩ := stable E d0 cs cs' hs
  have hD : ∀ i, ∃ dl : VssP.Deal F G, i ∈ qualSet (dRun E d0 cs) →
      ∃ v, (dRun E d0 cs).verifiers.get i = some v ∧ v.aggregator.deal = some dl := by
    intro i
    by_cases hi : i ∈ qualSet (dRun E d0 cs)
    · obtain ⟨v, hv, hc⟩ := (hQ i).1 hi
      rcases hs i v hv with ⟨h, -⟩ | h
      · obtain ⟨dl, hd⟩ := Option.isSome_iff_exists.1 h
        exact ⟨dl, fun _ => ⟨v, hv, hd⟩⟩
      · rw [refused h] at hc
        cases hc
    · exact ⟨⟨[], ⟨0, 0⟩, 0, []⟩, fun h => absurd h hi⟩
  choose D hD using hD
  have h1 := (C34_dist_key_share_iff E c secret draws d0 h0 hre hp coeffs hco hne cs ord k _ _ hQ D hD rfl).1 hk
  refine (C34_dist_key_share_iff E c secret draws d0 h0 hre hp coeffs hco hne (cs ++ cs') ord' k _ _
    (fun i => (hQ i).trans (hq i).symm) D (fun i hi => ?_) rfl).2 h1
  obtain ⟨v, hv, hd⟩ := hD i hi
  obtain ⟨v', hv', h⟩ := hdl i v hv
  exact ⟨v', hv', h _ hd⟩

namespace KeyStableExample

open Kyber.Toy AgreementPExample

/-- An honest run of participant 1, up to the point where dealers 0 and 1 are qualified, and the rest of it. -/
def early : List (DCall (ZMod 11) (ZMod 11)) :=
  ([.deals, .deal 0, .resp 0 2, .resp 1 0, .resp 1 2] : List HMsg).map (toCall 1)

def rest : List (DCall (ZMod 11) (ZMod 11)) := ([.deal 2, .resp 2 0] : List HMsg).map (toCall 1)

/-- Participant 1 hears nothing from participant 2 until the timeout, and then a complaint about the deal of participant
0, with private key 2. -/
def silent : List (DCall (ZMod 11) (ZMod 11)) :=
  ([.deals, .deal 0, .resp 1 0, .timeout] : List HMsg).map (toCall 1)

def late : DkgP.Response :=
  let r : VssP.Response := ⟨((net envDI).D 0).dealer.sessionId, 2, false, []⟩
  ⟨0, { r with signature := Schnorr.sign envDI.suite 5 2 (r.hash envDI.suite) }⟩

end KeyStableExample

open KeyStableExample Toy AgreementPExample in
/-- C156, violated in an honest run: participant 1 obtains a share when dealers 0 and 1 are qualified, and another one
after the remaining messages. -/
theorem C156_violated : ¬ C156_statement := by
  intro h
  have := h (ZMod 11) (ZMod 11) inferInstance inferInstance inferInstance inferInstance envDI ((net envDI).x 1)
    [6, 10, 4] 2 ((net envDI).sec 1) ((net envDI).draws 1) ((net envDI).D 1) rfl early rest MapOrder.id MapOrder.id
    ⟨[5, 0], ⟨1, 8⟩, [1, 6]⟩ (by decide +kernel)
  revert this
  decide +kernel

open KeyStableExample Toy AgreementPExample in
/-- C156, violated after a timeout: participant 1 obtains its share without participant 2; a complaint of participant 2
that comes later takes the share back. -/
theorem C156_violated_late : ∃ k,
    (dRun envDI ((net envDI).D 1) silent).distKeyShare envDI.suite MapOrder.id = .ok k ∧
    (dRun envDI ((net envDI).D 1) (silent ++ [.response late 1])).distKeyShare envDI.suite MapOrder.id =
      .err .distributedKeyNotCertified :=
  ⟨⟨[5, 0], ⟨1, 8⟩, [1, 6]⟩, by decide +kernel, by decide +kernel⟩

namespace KeyStableExample

open Kyber.Toy AgreementPExample

/-- `C156_certified_partial`: participant 1 has heard everything; then a timeout, the complaint of participant 2 and the
deals once more. -/
example : (dRun envDI ((net envDI).D 1) ((early ++ rest) ++ [.timeout, .response late 1, toCall 1 (.deal 2)])).distKeyShare
    envDI.suite MapOrder.id = .ok ⟨[2, 7], ⟨1, 8⟩, [1, 6]⟩ :=
  C156_certified_partial envDI ((net envDI).x 1) [6, 10, 4] (by decide +kernel) 2 ((net envDI).sec 1)
    ((net envDI).draws 1) ((net envDI).D 1) rfl (early ++ rest) _ MapOrder.id MapOrder.id _ (by decide +kernel)
    (by decide +kernel)

/-- Whether a deal is settled. -/
def settled (a : Aggregator (ZMod 11) (ZMod 11)) : Bool :=
  (a.deal.isSome && (List.range a.verifiers.length).all (fun i => match a.responses.get i with
    | some r => r.status
    | none => false)) || a.badDealer || (List.range a.verifiers.length).any (fun i => match a.responses.get i with
    | some r => !r.status
    | none => false)

theorem settled_spec (a : Aggregator (ZMod 11) (ZMod 11)) (h : settled a = true) : Settled a := by
  unfold settled at h
  rw [Bool.or_eq_true, Bool.or_eq_true, Bool.and_eq_true, List.all_eq_true, List.any_eq_true] at h
  rcases h with (⟨h1, h2⟩ | h) | ⟨i, hi, h⟩
  · refine .inl ⟨h1, fun i hi => ?_⟩
    have := h2 i (List.mem_range.2 hi)
    split at this
    · next r hr => exact ⟨r, hr, this⟩
    · cases this
  · exact .inr (.inl h)
  · refine .inr (.inr ⟨i, List.mem_range.1 hi, ?_⟩)
    split at h
    · next r hr => exact ⟨r, hr, by simpa using h⟩
    · cases h

/-- Participant 1 hears the complaint of participant 2 about the deal of participant 0, and everything about the other
two deals. -/
def refusal : List (DCall (ZMod 11) (ZMod 11)) :=
  ([.deals, .deal 0, .resp 1 0, .resp 1 2, .deal 2, .resp 2 0] : List HMsg).map (toCall 1) ++ [.response late 1]

/-- `C156_settled_partial`: the approval of participant 2 comes too late. -/
example : (dRun envDI ((net envDI).D 1) (refusal ++ [.timeout, toCall 1 (.resp 0 2)])).distKeyShare
    envDI.suite MapOrder.id = .ok ⟨[10, 8], ⟨1, 2⟩, [1, 6]⟩ := by
  refine C156_settled_partial envDI ((net envDI).x 1) [6, 10, 4] 2 ((net envDI).sec 1)
    ((net envDI).draws 1) ((net envDI).D 1) rfl refusal _ MapOrder.id MapOrder.id _ (by decide +kernel) ?_
  have : (dRun envDI ((net envDI).D 1) refusal).verifiers.all (fun e => settled e.2.aggregator) = true := by
    decide +kernel
  rw [List.all_eq_true] at this
  exact fun i v hv => settled_spec _ (this _ (AMap.mem_of_get hv))

open DkgPExample in
/-- `C156_resharing_partial` for the node that stays: after its complete history come a timeout and both deals again. -/
example (k : DistKeyShare (ZMod 11) (ZMod 11))
    (hk : (dRun envDI (rnet.D 1) (rsched.map (rnet.callNew envDI 1 1))).distKeyShare envDI.suite MapOrder.rev = .ok k) :
    (dRun envDI (rnet.D 1) (rsched.map (rnet.callNew envDI 1 1) ++ [.timeout, rnet.callNew envDI 1 1 (.deal 1),
      rnet.callNew envDI 1 1 (.deal 0)])).distKeyShare envDI.suite MapOrder.id = .ok k := by
  refine C156_resharing_partial envDI (rnc 1) 0 [6] (rnet.D 1) rfl (by decide +kernel) (by decide +kernel) [2, 8]
    (by decide +kernel) (by decide) _ _ MapOrder.rev MapOrder.id k hk ?_
  have : (dRun envDI (rnet.D 1) (rsched.map (rnet.callNew envDI 1 1))).verifiers.all
      (fun e => settled e.2.aggregator) = true := by
    decide +kernel
  rw [List.all_eq_true] at this
  exact fun i v hv => settled_spec _ (this _ (AMap.mem_of_get hv))

/-- That history does give a key share. -/
example : (match (dRun envDI (DkgPExample.rnet.D 1) (DkgPExample.rsched.map
    (DkgPExample.rnet.callNew envDI 1 1))).distKeyShare envDI.suite MapOrder.rev with
    | .ok k => k.share
    | _ => ⟨0, 0⟩) = ⟨1, 0⟩ := by decide +kernel

end KeyStableExample

end Kyber.Props
