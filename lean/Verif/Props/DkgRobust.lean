/-
Property C109 for the Pedersen DKG (`src/share/dkg/pedersen/dkg.rs`): a dealer that behaves correctly
is qualified, whatever the other participants send.
-/
import Verif.Lemmas.DkgRobust
import Verif.Spec.ToyDkg

set_option linter.unusedSectionVars false

namespace Kyber.Props

open Kyber Kyber.Poly Kyber.Spec Kyber.VssP Kyber.DkgP

/-- What participant `d0` (key `x`) receives about the honest dealer `dj` (key `xj`): the deal of
`dj` for it, under the signature of `dj` nothing that decrypts to something else; nothing signed
by itself; authentic answers to that deal by all of `A`. -/
structure Delivered {F G : Type} [Field F] [AddCommGroup G] [SMul F G] [DecidableEq G] (E : DkgEnv F G)
    (x xj : F) (ps : List G) (d0 dj : Dkg F G) (A : Finset Nat) (cs : List (DCall F G)) : Prop where
  deal : ∃ dh k rnd vk vk' e, Usable E.suite (k • E.suite.base) ∧ Usable E.suite (rnd • E.suite.base) ∧
    dj.dealer.encryptedDeal E.toEnv d0.nidx dh k = .ok e ∧ .deal (dj.signDeal E e rnd) vk vk' ∈ cs
  only : ∀ dd vk vk', .deal dd vk vk' ∈ cs → dd.index = dj.nidx →
    Schnorr.verify E.suite (xj • E.suite.base) (E.encDist dj.nidx dd.deal) dd.signature = .ok () →
    ∀ v q, newVerifier E.suite x (xj • E.suite.base) ps = .ok v → v.decryptDeal E.toEnv dd.deal = .ok q →
      dj.dealer.deals[d0.nidx]? = some q
  own : ∀ (r : DkgP.Response) (k : F), DCall.response r k ∈ cs → r.index = dj.nidx → Authentic E.suite ps r.response →
    r.response.index ≠ d0.nidx
  answers : ∀ l ∈ A, l < ps.length ∧ (l = d0.nidx ∨ l = dj.nidx ∨ ∃ r k, .response r k ∈ cs ∧
    r.index = dj.nidx ∧ r.response.index = l ∧ Authentic E.suite ps r.response ∧
    r.response.sessionId = dj.dealer.sessionId)

/-- C109, the intended property: if the participants of `A`, at least as many as the threshold,
approve the deal of an honest dealer, and the dealer justifies every complaint of the others, the
dealer is qualified after the timeout. -/
def C109_statement : Prop :=
  ∀ (F G : Type) (_ : Field F) (_ : AddCommGroup G) (_ : Module F G) (_ : DecidableEq G)
    (E : DkgEnv F G) (_ : E.suite.Lawful) (_ : E.prims.Lawful) (_ : Function.Injective E.suite.hash)
    (x xj : F) (ps : List G) (_ : ps.Nodup) (t : Nat) (secret sj : F) (draws drj : List F) (d0 dj : Dkg F G)
    (_ : newDistKeyGenerator E.suite x ps t secret draws = .ok d0)
    (_ : newDistKeyGenerator E.suite xj ps t sj drj = .ok dj)
    (_ : dj.nidx ≠ d0.nidx) (_ : Usable E.suite (xj • E.suite.base))
    (_ : ∀ dl ∈ dj.dealer.deals, E.codec.dec (E.codec.enc dl) = some dl)
    (A : Finset Nat) (_ : dj.newT ≤ A.card) (cs : List (DCall F G))
    (_ : Delivered E x xj ps d0 dj A cs)
    -- only participants outside of `A` complain
    (_ : ∀ (r : DkgP.Response) (k : F), DCall.response r k ∈ cs → r.index = dj.nidx → Authentic E.suite ps r.response →
      r.response.index ∈ A → r.response.status = true)
    -- every complaint is answered by the justification of the dealer, and there are no others
    (_ : ∀ (pre : List (DCall F G)) (r : DkgP.Response) (k : F) (post : List (DCall F G)),
      cs = pre ++ DCall.response r k :: post → r.index = dj.nidx →
      Authentic E.suite ps r.response → r.response.status = false →
      ∃ ju : DkgP.Justification F G, DCall.justification ju ∈ post ∧ ju.index = dj.nidx ∧
        ju.justification.index = r.response.index ∧ ju.justification.sessionId = dj.dealer.sessionId ∧
        dj.dealer.deals[r.response.index]? = some ju.justification.deal)
    (_ : ∀ ju : DkgP.Justification F G, DCall.justification ju ∈ cs → ju.index = dj.nidx →
      dj.dealer.deals[ju.justification.index]? = some ju.justification.deal)
    (_ : DCall.timeout ∈ cs),
    Qualified (dRun E d0 cs) dj.nidx

variable {F G : Type} [Field F] [AddCommGroup G] [SMul F G] [DecidableEq G]

theorem plain_of_deals {E : DkgEnv F G} {xj : F} {ps : List G} {t : Nat} {sj : F} {drj : List F}
    {dj : Dkg F G} (hj : newDistKeyGenerator E.suite xj ps t sj drj = .ok dj) {i : Nat} (hi : i < ps.length) :
    ∃ pl, dj.dealer.deals[i]? = some pl ∧ pl.t = dj.newT ∧ pl.sessionId = dj.dealer.sessionId := by
  obtain ⟨-, -, -, -, -, -, -, -, -, -, -, h10, -⟩ := newDealer_ok (newDistKeyGenerator_fresh hj).dealer
  exact ⟨_, by rw [h10, List.getElem?_map, List.getElem?_range hi]; rfl, rfl, rfl⟩

theorem start_decrypt {E : DkgEnv F G} {x : F} {ps : List G} {i : Nat} {p : G}
    (hk : ps[i]? = some (x • E.suite.base)) (hnd : ps.Nodup) :
    ∃ v, newVerifier E.suite x p ps = .ok v ∧
      ∀ e, v.decryptDeal E.toEnv e = (startVer E.suite x ps 0 i p).decryptDeal E.toEnv e :=
  ⟨_, newVerifier_findPub _ _ _ _ _ (findPub_nodup hnd hk), fun _ => rfl⟩

/-- Later calls keep a stored deal, stored responses and the timeout. -/
theorem run_keeps (E : DkgEnv F G) (d : Dkg F G) (cs : List (DCall F G)) (j : Nat) (v : Verifier F G)
    (hv : d.verifiers.get j = some v) :
    ∃ w, (dRun E d cs).verifiers.get j = some w ∧ VssP.Ext v.aggregator w.aggregator := by
  obtain ⟨vcs, -, h⟩ := (dRun_evolves E d cs).ver j v hv
  exact ⟨_, h, vRun_ext E.toEnv v vcs⟩

theorem run_split (E : DkgEnv F G) (d : Dkg F G) (pre : List (DCall F G)) (c : DCall F G)
    (post : List (DCall F G)) :
    dRun E d (pre ++ c :: post) = dRun E (dStep E (dRun E d pre) c) post := by
  simp [dRun, List.foldl_append]

theorem vRun_index_eq (E : Env F G) (v : Verifier F G) (cs : List (VCall F G)) :
    (vRun E v cs).index = v.index := by
  induction cs generalizing v with
  | nil => rfl
  | cons c cs ih => exact (ih (vStep E v c)).trans (vStep_ident E v c).2.2.1

theorem processResponse_processed (E : DkgEnv F G) (d : Dkg F G) (r : DkgP.Response) (k : F) :
    (d.processResponse E r k).1.processed = d.processed := by
  unfold Dkg.processResponse Dkg.processResharingResponse
  repeat' first | rfl | split | simp only

section

variable {E : DkgEnv F G} {x : F} {ps : List G} {t : Nat} {secret : F} {draws : List F} {d0 : Dkg F G}
  {xd sd : F} {T : Nat} {dr : List F} {dl : Dealer F G} {j : Nat} {pl : VssP.Deal F G}
  (hS : E.suite.Lawful) (hnd : ps.Nodup) (h0 : newDistKeyGenerator E.suite x ps t secret draws = .ok d0)
  (hdl : newDealer E.suite xd sd ps T dr = .ok dl) (hj : ps[j]? = some (xd • E.suite.base))
  (hpl : dl.deals[d0.nidx]? = some pl) (cs : List (DCall F G))
  (hfine : ∀ c ∈ cs, Fine E x ps d0 j (xd • E.suite.base) pl c)

include hS hnd h0 hdl hj hpl hfine

/-- An authentic answer with the right session id fills the slot of its author. -/
theorem answer_stored {r : DkgP.Response} {k : F} (hmem : .response r k ∈ cs) (hri : r.index = j)
    (hau : Authentic E.suite ps r.response) (hsid : r.response.sessionId = pl.sessionId)
    {v : Verifier F G} (hv : (dRun E d0 cs).verifiers.get j = some v) :
    (v.aggregator.responses.get r.response.index).isSome := by
  have f0 := newDistKeyGenerator_fresh h0
  obtain ⟨pre, post, hcs⟩ := List.append_of_mem hmem
  obtain ⟨w, hw, hwr⟩ := run_VR hS hnd h0 hdl hj hpl pre
    (fun c hc => hfine c (by rw [hcs]; exact List.mem_append_left _ hc))
  have hst := hwr.response_stored r.response hau hsid
  have hw2 := hwr.response r.response (fun h => hfine _ hmem hri h)
  have hre : (dRun E d0 pre).isResharing = false := (dRun_evolves E d0 pre).isResharing.trans f0.re
  have hget : ∃ u, (dStep E (dRun E d0 pre) (.response r k)).verifiers.get j = some u ∧
      (u.aggregator.responses.get r.response.index).isSome := by
    rcases processResponse_ver (E := E) hre hw r k with ⟨hc, -⟩ | ⟨-, h2⟩
    · exact absurd hri hc
    · rcases h2 with h2 | ⟨ju, h2⟩
      · exact ⟨_, h2, hst⟩
      · exact ⟨_, h2, by rw [hw2.justification]; exact hst⟩
  obtain ⟨u, hu, hus⟩ := hget
  obtain ⟨w', hw', hext⟩ := run_keeps E _ post j u hu
  rw [← run_split, ← hcs, hv] at hw'
  cases hw'
  obtain ⟨q, hq⟩ := Option.isSome_iff_exists.1 hus
  rw [hext.responses _ _ hq]; rfl

theorem time_stored {v : Verifier F G} (hv : (dRun E d0 cs).verifiers.get j = some v) (A : Finset Nat)
    (htime : .timeout ∈ cs ∨ A = Finset.range ps.length) :
    v.aggregator.timeout = true ∨ A = Finset.range ps.length := by
  rcases htime with hmem | h
  · left
    obtain ⟨pre, post, hcs⟩ := List.append_of_mem hmem
    obtain ⟨w, hw, -⟩ := run_VR hS hnd h0 hdl hj hpl pre
      (fun c hc => hfine c (by rw [hcs]; exact List.mem_append_left _ hc))
    have hu : (dStep E (dRun E d0 pre) .timeout).verifiers.get j = some w.setTimeout := by
      show AMap.get ((dRun E d0 pre).verifiers.map _) j = _
      rw [get_map, hw]; rfl
    obtain ⟨w', hw', hext⟩ := run_keeps E _ post j _ hu
    rw [← run_split, ← hcs, hv] at hw'
    cases hw'
    exact hext.timeout rfl
  · exact Or.inr h

end

/-- What holds: without authentic complaints about the honest dealer it is qualified, after the
timeout as soon as `A` reaches the threshold, before it when everybody has answered; and the
deal counted is the one it made. All other messages are arbitrary: deals, responses and
justifications about other dealers, responses of others, repeated and forged messages, in any order.
Missing: one complaint of anybody, justified or not (`C109_violated`). -/
theorem C109_honest_dealer_partial (E : DkgEnv F G) (hS : E.suite.Lawful) (hP : E.prims.Lawful)
    (x xj : F) (ps : List G) (hnd : ps.Nodup) (t : Nat) (secret sj : F) (draws drj : List F) (d0 dj : Dkg F G)
    (h0 : newDistKeyGenerator E.suite x ps t secret draws = .ok d0)
    (hj : newDistKeyGenerator E.suite xj ps t sj drj = .ok dj)
    (hne : dj.nidx ≠ d0.nidx) (hx : Usable E.suite (xj • E.suite.base))
    (hC : ∀ dl ∈ dj.dealer.deals, E.codec.dec (E.codec.enc dl) = some dl)
    (A : Finset Nat) (hA : dj.newT ≤ A.card) (cs : List (DCall F G))
    (hD : Delivered E x xj ps d0 dj A cs)
    (hno : ∀ r k, .response r k ∈ cs → r.index = dj.nidx → Authentic E.suite ps r.response →
      r.response.status = true)
    (htime : .timeout ∈ cs ∨ A = Finset.range ps.length) :
    Qualified (dRun E d0 cs) dj.nidx ∧
    ∃ v, (dRun E d0 cs).verifiers.get dj.nidx = some v ∧
      v.aggregator.deal = dj.dealer.deals[d0.nidx]? := by
  have f0 := newDistKeyGenerator_fresh h0
  have fj := newDistKeyGenerator_fresh hj
  have hil := (List.getElem?_eq_some_iff.1 f0.key).1
  obtain ⟨pl, hpl, hplt, hpls⟩ := plain_of_deals hj hil
  obtain ⟨v0, hv0, hdecv⟩ := start_decrypt (E := E) (p := xj • E.suite.base) f0.key hnd
  have hfine : ∀ c ∈ cs, Fine E x ps d0 dj.nidx (xj • E.suite.base) pl c := by
    intro c hc
    cases c with
    | deals dh k rnd vk vk' => intro h; exact absurd h hne
    | deal dd vk vk' =>
      intro h1 h2 q hq
      have := hD.only dd vk vk' hc h1 h2 v0 q hv0 (by rw [hdecv]; exact hq)
      rw [hpl] at this
      exact (Option.some.inj this).symm
    | response r k => intro h1 h2; exact ⟨hno r k hc h1 h2, hD.own r k hc h1 h2⟩
    | justification ju => trivial
    | timeout => trivial
  have hrun := fun pre (hpre : ∀ c ∈ pre, c ∈ cs) =>
    run_VR hS hnd h0 fj.dealer fj.key hpl pre (fun c hc => hfine c (hpre c hc))
  obtain ⟨v, hv, hvr⟩ := hrun cs (fun _ h => h)
  -- the deal has been stored
  have hdeal : v.aggregator.deal = some pl := by
    obtain ⟨dh, k, rnd, vk, vk', e, hk, hrnd, he, hmem⟩ := hD.deal
    obtain ⟨pre, post, hcs⟩ := List.append_of_mem hmem
    obtain ⟨w, hw, hwr⟩ := hrun pre (fun c hc => by rw [hcs]; exact List.mem_append_left _ hc)
    have hidx : (dj.signDeal E e rnd).index = dj.nidx := fj.oidx
    have hsig : Schnorr.verify E.suite (xj • E.suite.base) (E.encDist dj.nidx (dj.signDeal E e rnd).deal)
        (dj.signDeal E e rnd).signature = .ok () := by
      have := C11_sign_verify E.suite hS rnd xj (E.encDist dj.nidx e) hrnd.1 hrnd.2 hx.1 hx.2
      unfold Dkg.signDeal
      rw [fj.longterm, fj.oidx]
      exact this
    have hdec := decrypt_honest E.toEnv hS hP hC fj.dealer hx f0.key hk he
      (startVer_st E.suite x ps 0 d0.nidx (xj • E.suite.base)) hpl
    obtain ⟨u, hu, -, -, hgot⟩ := processDeal_VR hS hnd h0 fj.dealer fj.key hpl (dRun_evolves E d0 pre) hw hwr
      (dj.signDeal E e rnd) vk vk' (hfine _ hmem)
    obtain ⟨w', hw', hext⟩ := run_keeps E (dStep E (dRun E d0 pre) (.deal (dj.signDeal E e rnd) vk vk')) post
      dj.nidx u hu
    rw [← run_split, ← hcs, hv] at hw'
    cases hw'
    exact hext.deal _ (hgot hidx hsig hdec)
  have hslots : ∀ l ∈ A, l < ps.length ∧ (v.aggregator.responses.get l).isSome := by
    intro l hl
    obtain ⟨h1, h2⟩ := hD.answers l hl
    refine ⟨h1, ?_⟩
    have hslot : (v.aggregator.responses.get d0.nidx).isSome ∧ (v.aggregator.responses.get dj.nidx).isSome := by
      rcases hvr.dl with ⟨h, -⟩ | ⟨-, -, -, h4, h5⟩
      · rw [hdeal] at h; cases h
      · exact ⟨h4, h5⟩
    rcases h2 with rfl | rfl | ⟨r, k, hmem, hri, rfl, hau, hsid⟩
    · exact hslot.1
    · exact hslot.2
    · exact answer_stored hS hnd h0 fj.dealer fj.key hpl cs hfine hmem hri hau (by rw [hsid, hpls]) hv
  exact ⟨⟨v, hv, hvr.certified (by rw [hdeal]; simp) A hslots (by rw [hplt]; exact hA)
    (time_stored hS hnd h0 fj.dealer fj.key hpl cs hfine hv A htime)⟩, v, hv, by rw [hdeal, hpl]⟩

/-- The same for the deal of the participant itself: it is processed by the first call of `deals`. -/
theorem C109_own_dealer_partial (E : DkgEnv F G) (hS : E.suite.Lawful) (hP : E.prims.Lawful)
    (x : F) (ps : List G) (hnd : ps.Nodup) (t : Nat) (secret : F) (draws : List F) (d0 : Dkg F G)
    (h0 : newDistKeyGenerator E.suite x ps t secret draws = .ok d0)
    (hx : Usable E.suite (x • E.suite.base))
    (hC : ∀ dl ∈ d0.dealer.deals, E.codec.dec (E.codec.enc dl) = some dl)
    (A : Finset Nat) (hA : d0.newT ≤ A.card) (pre post : List (DCall F G))
    (dh k rnd : Nat → F) (vk vk' : F) (out : AMap (DkgP.Deal G))
    (hfirst : ∀ dh k rnd vk vk', .deals dh k rnd vk vk' ∉ pre)
    (hdeals : ((dRun E d0 pre).deals E dh k rnd vk vk').2 = .ok out)
    (cs : List (DCall F G)) (hcs : cs = pre ++ .deals dh k rnd vk vk' :: post)
    (hk : ∀ dh k rnd vk vk', .deals dh k rnd vk vk' ∈ cs → Usable E.suite (k d0.nidx • E.suite.base))
    (honly : ∀ dd vk vk', .deal dd vk vk' ∈ cs → dd.index = d0.nidx →
      Schnorr.verify E.suite (x • E.suite.base) (E.encDist d0.nidx dd.deal) dd.signature = .ok () →
      ∀ v q, newVerifier E.suite x (x • E.suite.base) ps = .ok v → v.decryptDeal E.toEnv dd.deal = .ok q →
        d0.dealer.deals[d0.nidx]? = some q)
    (hno : ∀ r k, .response r k ∈ cs → r.index = d0.nidx → Authentic E.suite ps r.response →
      r.response.status = true ∧ r.response.index ≠ d0.nidx)
    (hans : ∀ l ∈ A, l < ps.length ∧ (l = d0.nidx ∨ ∃ r k, .response r k ∈ cs ∧
      r.index = d0.nidx ∧ r.response.index = l ∧ Authentic E.suite ps r.response ∧
      r.response.sessionId = d0.dealer.sessionId))
    (htime : .timeout ∈ cs ∨ A = Finset.range ps.length) :
    Qualified (dRun E d0 cs) d0.nidx ∧
    ∃ v, (dRun E d0 cs).verifiers.get d0.nidx = some v ∧
      v.aggregator.deal = d0.dealer.deals[d0.nidx]? := by
  have f0 := newDistKeyGenerator_fresh h0
  have hil := (List.getElem?_eq_some_iff.1 f0.key).1
  obtain ⟨pl, hpl, hplt, hpls⟩ := plain_of_deals h0 hil
  obtain ⟨v0, hv0, hdecv⟩ := start_decrypt (E := E) (p := x • E.suite.base) f0.key hnd
  have hfine : ∀ c ∈ cs, Fine E x ps d0 d0.nidx (x • E.suite.base) pl c := by
    intro c hc
    cases c with
    | deals dh k rnd vk vk' =>
      intro _ e he q hq
      have := decrypt_honest E.toEnv hS hP hC f0.dealer hx f0.key (hk _ _ _ _ _ hc) he
        (startVer_st E.suite x ps 0 d0.nidx (x • E.suite.base)) hpl
      rw [this] at hq
      exact (Res.ok.inj hq).symm
    | deal dd vk vk' =>
      intro h1 h2 q hq
      have := honly dd vk vk' hc h1 h2 v0 q hv0 (by rw [hdecv]; exact hq)
      rw [hpl] at this
      exact (Option.some.inj this).symm
    | response r k => exact hno r k hc
    | justification ju => trivial
    | timeout => trivial
  have hrun := fun pre (hpre : ∀ c ∈ pre, c ∈ cs) =>
    run_VR hS hnd h0 f0.dealer f0.key hpl pre (fun c hc => hfine c (hpre c hc))
  obtain ⟨v, hv, hvr⟩ := hrun cs (fun _ h => h)
  have hdeal : v.aggregator.deal = some pl := by
    have hev := dRun_evolves E d0 pre
    obtain ⟨w, hw, hwr⟩ := hrun pre (fun c hc => by rw [hcs]; exact List.mem_append_left _ hc)
    have hproc : (dRun E d0 pre).processed = false := by
      have key : ∀ (cs : List (DCall F G)) (d : Dkg F G), d.processed = false →
          (∀ dh k rnd vk vk', DCall.deals dh k rnd vk vk' ∉ cs) → (dRun E d cs).processed = false := by
        intro cs
        induction cs with
        | nil => intro d h _; exact h
        | cons c cs ih =>
          intro d h hn
          refine ih (dStep E d c) ?_ (fun dh k rnd vk vk' hm => hn dh k rnd vk vk' (List.mem_cons_of_mem _ hm))
          cases c with
          | deals dh k rnd vk vk' => exact absurd (by simp) (hn dh k rnd vk vk')
          | deal dd vk vk' => exact (processDeal_processed E d dd vk vk').trans h
          | response r k =>
            show (d.processResponse E r k).1.processed = false
            rw [processResponse_processed]; exact h
          | justification ju =>
            show (d.processJustification E ju).1.processed = false
            unfold Dkg.processJustification
            split <;> exact h
          | timeout => exact h
      exact key pre d0 f0.processed hfirst
    obtain ⟨e, r, he, hpd⟩ := deals_first (E := E) (d := dRun E d0 pre) (hev.canIssue.trans f0.issue)
      (hev.newPresent.trans f0.new) (hev.isResharing.trans f0.re) hproc
      (by rw [hev.nidx, hev.c, f0.nodes]; exact hil) hdeals
    have he : d0.dealer.encryptedDeal E.toEnv d0.nidx (dh d0.nidx) (k d0.nidx) = .ok e := by
      rw [← he, ← hev.dealer, hev.nidx]; rfl
    have hmem : DCall.deals dh k rnd vk vk' ∈ cs := by rw [hcs]; simp
    obtain ⟨u, hu, -, hgot, -⟩ := processDeal_VR hS hnd h0 f0.dealer f0.key hpl
      (d := { dRun E d0 pre with processed := true }) (hev.trans (processed_evolves E _ true)) hw hwr
      ((dRun E d0 pre).signDeal E e (rnd (dRun E d0 pre).nidx)) vk vk' (by
        intro _ _ q hq
        exact hfine _ hmem rfl e he q hq)
    rw [hpd] at hu hgot
    have hidx : ((dRun E d0 pre).signDeal E e (rnd (dRun E d0 pre).nidx)).index = d0.nidx := by
      show (dRun E d0 pre).oidx = _
      rw [hev.oidx, f0.oidx]
    obtain ⟨w', hw', hext⟩ := run_keeps E ((dRun E d0 pre).deals E dh k rnd vk vk').1 post d0.nidx u hu
    have : dRun E d0 cs = dRun E ((dRun E d0 pre).deals E dh k rnd vk vk').1 post := by
      rw [hcs, run_split]; rfl
    rw [← this, hv] at hw'
    cases hw'
    exact hext.deal _ (hgot hidx ⟨r, rfl⟩)
  have hslots : ∀ l ∈ A, l < ps.length ∧ (v.aggregator.responses.get l).isSome := by
    intro l hl
    obtain ⟨h1, h2⟩ := hans l hl
    refine ⟨h1, ?_⟩
    rcases h2 with rfl | ⟨r, k, hmem, hri, rfl, hau, hsid⟩
    · rcases hvr.dl with ⟨h, -⟩ | ⟨-, -, -, h4, h5⟩
      · rw [hdeal] at h; cases h
      · exact h4
    · exact answer_stored hS hnd h0 f0.dealer f0.key hpl cs hfine hmem hri hau (by rw [hsid, hpls]) hv
  exact ⟨⟨v, hv, hvr.certified (by rw [hdeal]; simp) A hslots (by rw [hplt]; exact hA)
    (time_stored hS hnd h0 f0.dealer f0.key hpl cs hfine hv A htime)⟩, v, hv, by rw [hdeal, hpl]⟩

/-- An answer that anybody signed for another deal and that is replayed before the deal of `j`
arrives silences the participant that signed it: once its slot is taken, it never gets to answer
the deal of `j`. -/
theorem C109_replayed_answer (E : DkgEnv F G) (x : F) (ps : List G) (hnd : ps.Nodup) (t : Nat)
    (secret : F) (draws : List F) (d0 : Dkg F G)
    (h0 : newDistKeyGenerator E.suite x ps t secret draws = .ok d0)
    (cs : List (DCall F G)) (j : Nat) (v : Verifier F G) (hv : (dRun E d0 cs).verifiers.get j = some v)
    (r : VssP.Response) (hr : v.aggregator.responses.get d0.nidx = some r)
    (dd : DkgP.Deal G) (hdd : dd.index = j) (k k' : F) (resp : DkgP.Response) :
    ((dRun E d0 cs).processDeal E dd k k').2 ≠ .ok resp := by
  subst hdd
  have f0 := newDistKeyGenerator_fresh h0
  have hev := dRun_evolves E d0 cs
  have hnn : (dRun E d0 cs).c.newNodes = ps := by rw [hev.c]; exact f0.nodes
  rcases processDeal_ver (E := E) (hev.isResharing.trans f0.re) (by rw [hnn]; exact hnd) hv dd k k' with
    ⟨-, h2, -⟩ | ⟨-, P, hP, -, w, res, hw, hcase⟩
  · rcases h2 with h2 | h2
    · exact absurd rfl h2
    · exact h2 resp
  · rcases hcase with ⟨-, c2, -⟩ | ⟨⟨q, rfl⟩, -⟩
    · exact c2 resp
    · exfalso
      have hidx : v.index = d0.nidx := by
        rw [hnn] at hP
        obtain ⟨vcs, -, h⟩ := hev.ver dd.index _ (f0.vers hnd _ _ hP)
        rw [hv] at h
        cases h
        exact vRun_index_eq E.toEnv _ vcs
      have h2 : (v.processEncryptedDeal E.toEnv dd.deal k).2 = .ok q := by rw [hw]
      rcases processEncryptedDeal_cases E.toEnv v dd.deal k with (⟨e, h⟩ | h) | ⟨d, -, -, -, ⟨-, h⟩ | ⟨st, -, -, h⟩⟩
      · rw [h] at h2; cases h2
      · rw [h] at h2; cases h2
      · rw [h] at h2; cases h2
      · rw [h] at h2
        rcases addResponse_cases (v.aggregator.remember d) (mkReply E.toEnv v d k st) with ⟨e, h'⟩ | ⟨-, hn, -⟩
        · rw [h'] at h2; cases h2
        · rw [remember_responses] at hn
          have : (mkReply E.toEnv v d k st).index = d0.nidx := hidx
          rw [this, hr] at hn
          cases hn

namespace DkgRobustExample

open Kyber.Toy

/-- A message of participant `l` (key `x`) about the deal of dealer 0. -/
def answer0 (x : ZMod 11) (l : Nat) (st : Bool) : DkgP.Response :=
  let r : VssP.Response := ⟨((net envDI).D 0).dealer.sessionId, l, st, []⟩
  ⟨0, { r with signature := Schnorr.sign envDI.suite 5 x (r.hash envDI.suite) }⟩

/-- The justification of dealer 0 towards participant 2. -/
def just0 : DkgP.Justification (ZMod 11) (ZMod 11) :=
  ⟨0, ⟨((net envDI).D 0).dealer.sessionId, 2,
    (((net envDI).D 0).dealer.deals[2]?).getD ⟨[], ⟨0, 0⟩, 0, []⟩, []⟩⟩

/-- What participant 1 receives: the deal of dealer 0, a false complaint of participant 2 about it,
and the justification of dealer 0. -/
def smeared : List (DCall (ZMod 11) (ZMod 11)) :=
  [.deal ((net envDI).dealMsg envDI 0 1) 5 1, .response (answer0 2 2 false) 1, .justification just0, .timeout]

/-- What participant 1 receives when participant 2 only disturbs: a deal in the name of dealer 0
under the signature of participant 2, an approval in its own name under a wrong signature, the deal of
dealer 0, the approval of participant 2, a justification nobody asked for. -/
def disturbed : List (DCall (ZMod 11) (ZMod 11)) :=
  [.deal { (net envDI).dealMsg envDI 2 1 with index := 0 } 5 1, .response (answer0 2 1 false) 1,
   .deal ((net envDI).dealMsg envDI 0 1) 5 1, .justification just0, .timeout,
   .response (answer0 2 2 true) 1]

theorem start (i : Nat) (hi : i < 3) : newDistKeyGenerator envDI.suite ([3, 5, 2].getD i 1) [6, 10, 4] 2
    ([7, 1, 4].getD i 0) ([[5], [6], [9]].getD i []) = .ok ((net envDI).D i) := by
  match i, hi with
  | 0, _ => rfl
  | 1, _ => rfl
  | 2, _ => rfl

/-- Whether a deal for participant 1 in the name of dealer 0 is refused or the dealt one. -/
def onlyDealt (dd : DkgP.Deal (ZMod 11)) : Bool :=
  match Schnorr.verify envDI.suite 6 (envDI.encDist 0 dd.deal) dd.signature,
    newVerifier envDI.suite (5 : ZMod 11) (6 : ZMod 11) [6, 10, 4] with
  | .ok (), .ok v => match v.decryptDeal envDI.toEnv dd.deal with
    | .ok q => decide (((net envDI).D 0).dealer.deals[1]? = some q)
    | _ => true
  | _, _ => true

theorem onlyDealt_spec {dd : DkgP.Deal (ZMod 11)} (h : onlyDealt dd = true)
    (hv : Schnorr.verify envDI.suite ((3 : ZMod 11) • envDI.suite.base) (envDI.encDist 0 dd.deal)
      dd.signature = .ok ()) (v : Verifier (ZMod 11) (ZMod 11)) (q : VssP.Deal (ZMod 11) (ZMod 11))
    (hn : newVerifier envDI.suite (5 : ZMod 11) ((3 : ZMod 11) • envDI.suite.base) [6, 10, 4] = .ok v)
    (hq : v.decryptDeal envDI.toEnv dd.deal = .ok q) :
    ((net envDI).D 0).dealer.deals[1]? = some q := by
  have hb : (3 : ZMod 11) • envDI.suite.base = 6 := by decide +kernel
  rw [hb] at hv hn
  unfold onlyDealt at h
  rw [hv, hn] at h
  simp only [hq] at h
  exact of_decide_eq_true h

/-- Whether a response is authentic. -/
def isAuth (r : VssP.Response) : Bool :=
  match ([6, 10, 4] : List (ZMod 11))[r.index]? with
  | some P => decide (Schnorr.verify envDI.suite P (r.hash envDI.suite) r.signature = .ok ())
  | none => false

theorem isAuth_spec (r : VssP.Response) : Authentic envDI.suite [6, 10, 4] r ↔ isAuth r = true := by
  unfold Authentic isAuth
  constructor
  · rintro ⟨P, h1, h2⟩
    rw [h1]
    exact decide_eq_true h2
  · intro h
    split at h
    · rename_i P hP; exact ⟨P, hP, of_decide_eq_true h⟩
    · cases h

theorem facts : onlyDealt ((net envDI).dealMsg envDI 0 1) = true ∧
    onlyDealt { (net envDI).dealMsg envDI 2 1 with index := 0 } = true ∧
    isAuth (answer0 2 2 false).response = true ∧ isAuth (answer0 2 2 true).response = true ∧
    isAuth (answer0 2 1 false).response = false ∧
    ((net envDI).D 0).dealer.deals[2]? = some just0.justification.deal ∧
    ((net envDI).D 0).newT = 2 ∧ ((net envDI).D 0).nidx = 0 ∧ ((net envDI).D 1).nidx = 1 := by
  decide +kernel

theorem sent : ∃ dh k rnd vk vk' e, Usable envDI.suite (k • envDI.suite.base) ∧
    Usable envDI.suite (rnd • envDI.suite.base) ∧
    ((net envDI).D 0).dealer.encryptedDeal envDI.toEnv 1 dh k = .ok e ∧
    (DCall.deal (((net envDI).D 0).signDeal envDI e rnd) vk vk' : DCall (ZMod 11) (ZMod 11)) =
      .deal ((net envDI).dealMsg envDI 0 1) 5 1 := by
  refine ⟨(net envDI).dh 0 1, (net envDI).k 0 1, (net envDI).rnd 0 1, 5, 1, (net envDI).enc envDI 0 1, ?_, ?_, ?_, ?_⟩
  · exact ⟨by decide +kernel, by decide +kernel⟩
  · exact ⟨by decide +kernel, by decide +kernel⟩
  · have h : (match ((net envDI).D 0).dealer.encryptedDeal envDI.toEnv 1 ((net envDI).dh 0 1) ((net envDI).k 0 1) with
      | .ok _ => true | _ => false) = true := by decide +kernel
    unfold Net.enc
    split at h
    · rename_i e he; rw [he]
    · cases h
  · rfl

theorem smeared_delivered : Delivered envDI (5 : ZMod 11) 3 [6, 10, 4] ((net envDI).D 1) ((net envDI).D 0)
    {0, 1} smeared where
  deal := by
    obtain ⟨dh, k, rnd, vk, vk', e, h1, h2, h3, h4⟩ := sent
    exact ⟨dh, k, rnd, vk, vk', e, h1, h2, h3, by rw [h4]; simp [smeared]⟩
  only dd vk vk' hm _ hv v q hn hq := by
    simp only [smeared, List.mem_cons, List.not_mem_nil, or_false, reduceCtorEq, DCall.deal.injEq] at hm
    obtain ⟨rfl, -⟩ := hm
    exact onlyDealt_spec facts.1 hv v q hn hq
  own r k hm _ _ := by
    simp only [smeared, List.mem_cons, List.not_mem_nil, or_false, false_or, reduceCtorEq,
      DCall.response.injEq] at hm
    obtain ⟨rfl, -⟩ := hm
    decide +kernel
  answers l hl := by
    simp only [Finset.mem_insert, Finset.mem_singleton] at hl
    rcases hl with rfl | rfl
    · exact ⟨by decide, Or.inr (Or.inl (by decide +kernel))⟩
    · exact ⟨by decide, Or.inl (by decide +kernel)⟩

theorem disturbed_delivered : Delivered envDI (5 : ZMod 11) 3 [6, 10, 4] ((net envDI).D 1) ((net envDI).D 0)
    {0, 1, 2} disturbed where
  deal := by
    obtain ⟨dh, k, rnd, vk, vk', e, h1, h2, h3, h4⟩ := sent
    exact ⟨dh, k, rnd, vk, vk', e, h1, h2, h3, by rw [h4]; simp [disturbed]⟩
  only dd vk vk' hm _ hv v q hn hq := by
    simp only [disturbed, List.mem_cons, List.not_mem_nil, or_false, false_or, reduceCtorEq,
      DCall.deal.injEq] at hm
    rcases hm with ⟨rfl, -⟩ | ⟨rfl, -⟩
    · exact onlyDealt_spec facts.2.1 hv v q hn hq
    · exact onlyDealt_spec facts.1 hv v q hn hq
  own r k hm _ ha := by
    simp only [disturbed, List.mem_cons, List.not_mem_nil, or_false, false_or, reduceCtorEq,
      DCall.response.injEq] at hm
    rcases hm with ⟨rfl, -⟩ | ⟨rfl, -⟩
    · rw [isAuth_spec, facts.2.2.2.2.1] at ha; cases ha
    · decide +kernel
  answers l hl := by
    simp only [Finset.mem_insert, Finset.mem_singleton] at hl
    rcases hl with rfl | rfl | rfl
    · exact ⟨by decide, Or.inr (Or.inl (by decide +kernel))⟩
    · exact ⟨by decide, Or.inl (by decide +kernel)⟩
    · refine ⟨by decide, Or.inr (Or.inr ⟨answer0 2 2 true, 1, by simp [disturbed], by decide +kernel, rfl,
        (isAuth_spec _).2 facts.2.2.2.1, rfl⟩)⟩

def notCert : Option (Verifier (ZMod 11) (ZMod 11)) → Bool
  | some v => !v.aggregator.dealCertified
  | none => false

theorem notCert_spec {o : Option (Verifier (ZMod 11) (ZMod 11))} (h : notCert o = true)
    {v : Verifier (ZMod 11) (ZMod 11)} (hv : o = some v) (hc : v.aggregator.dealCertified = true) : False := by
  subst hv
  simp [notCert, hc] at h

def isOk {ε α : Type} : Res ε α → Bool
  | .ok _ => true
  | _ => false

theorem isOk_spec {ε α : Type} {r : Res ε α} (h : isOk r = true) : ∃ a, r = .ok a := by
  cases r with
  | ok a => exact ⟨a, rfl⟩
  | err e => cases h
  | panic => cases h

/-- The honest dealer 0 is out; without the complaint it is in. -/
theorem smeared_qual : (dRun envDI ((net envDI).D 1) smeared).qual MapOrder.id = [] ∧
    (dRun envDI ((net envDI).D 1) (smeared.eraseIdx 1)).qual MapOrder.id = [0] ∧
    -- the justification is taken
    ((dRun envDI ((net envDI).D 1) (smeared.take 2)).processJustification envDI just0).2 = .ok () ∧
    notCert ((dRun envDI ((net envDI).D 1) smeared).verifiers.get 0) = true := by
  decide +kernel

end DkgRobustExample

open DkgRobustExample Toy in
/-- C109 does not hold: one false complaint keeps an honest dealer out although it justified
itself. -/
theorem C109_violated : ¬ C109_statement := by
  intro h
  obtain ⟨-, -, -, -, -, f6, f7, f8, f9⟩ := facts
  obtain ⟨v, hv, hc⟩ := h (ZMod 11) (ZMod 11) _ _ _ _ envDI envDI_lawful prims_lawful (fun _ _ h => h) 5 3
    [6, 10, 4] (by decide +kernel) 2 1 7 [6] [5] ((net envDI).D 1) ((net envDI).D 0) (start 1 (by decide))
    (start 0 (by decide)) (by rw [f8, f9]; decide) ⟨by decide +kernel, by decide +kernel⟩
    (fun dl _ => codecP_lawful dl) {0, 1} (by rw [f7]; decide) smeared smeared_delivered
    (by
      intro r k hm _ _ hA
      simp only [smeared, List.mem_cons, List.not_mem_nil, or_false, false_or, reduceCtorEq,
        DCall.response.injEq] at hm
      obtain ⟨rfl, -⟩ := hm
      revert hA; decide)
    (by
      intro pre r k post hcs _ _ _
      match pre, hcs with
      | [], hcs => cases hcs
      | [a], hcs =>
        cases hcs
        exact ⟨just0, by simp, by rw [f8]; rfl, rfl, rfl, f6⟩
      | [a, b], hcs => cases hcs
      | [a, b, c], hcs => cases hcs
      | a :: b :: c :: d :: l, hcs => simp [smeared] at hcs)
    (by
      intro ju hm _
      simp only [smeared, List.mem_cons, List.not_mem_nil, or_false, false_or, reduceCtorEq,
        DCall.justification.injEq] at hm
      subst hm
      exact f6)
    (by simp [smeared])
  rw [f8] at hv
  exact notCert_spec smeared_qual.2.2.2 hv hc

open DkgRobustExample Toy in
/-- Participant 2 disturbs, and dealer 0 is qualified at participant 1. -/
example : Qualified (dRun envDI ((net envDI).D 1) disturbed) ((net envDI).D 0).nidx :=
  (C109_honest_dealer_partial envDI envDI_lawful prims_lawful 5 3
    [6, 10, 4] (by decide +kernel) 2 1 7 [6] [5] ((net envDI).D 1) ((net envDI).D 0) (start 1 (by decide))
    (start 0 (by decide)) (by rw [facts.2.2.2.2.2.2.2.1, facts.2.2.2.2.2.2.2.2]; decide)
    ⟨by decide +kernel, by decide +kernel⟩
    (fun dl _ => codecP_lawful dl) {0, 1, 2} (by rw [facts.2.2.2.2.2.2.1]; decide) disturbed disturbed_delivered
    (by
      intro r k hm _ ha
      simp only [disturbed, List.mem_cons, List.not_mem_nil, or_false, false_or, reduceCtorEq,
        DCall.response.injEq] at hm
      rcases hm with ⟨rfl, -⟩ | ⟨rfl, -⟩
      · rw [isAuth_spec, facts.2.2.2.2.1] at ha; cases ha
      · rfl)
    (Or.inl (by simp [disturbed]))).1

open DkgRobustExample Toy in
/-- Dealer 0 itself: it deals, participant 1 approves, and the timeout comes; participant 2 is silent
towards it and sends a deal in its name. -/
example : Qualified (dRun envDI ((net envDI).D 0) ([.timeout] ++
    .deals ((net envDI).dh 0) ((net envDI).k 0) ((net envDI).rnd 0) 5 1 ::
      [.deal { (net envDI).dealMsg envDI 2 0 with index := 0 } 5 1, .response (answer0 5 1 true) 1]))
    ((net envDI).D 0).nidx := by
  have hd : ∃ out, (((dRun envDI ((net envDI).D 0) [.timeout]).deals envDI ((net envDI).dh 0) ((net envDI).k 0)
      ((net envDI).rnd 0) 5 1).2) = .ok out := by
    exact isOk_spec (by decide +kernel)
  obtain ⟨out, hd⟩ := hd
  have f8 := facts.2.2.2.2.2.2.2.1
  refine (C109_own_dealer_partial envDI envDI_lawful prims_lawful 3 [6, 10, 4] (by decide +kernel) 2 7 [5]
    ((net envDI).D 0) (start 0 (by decide)) ⟨by decide +kernel, by decide +kernel⟩
    (fun dl _ => codecP_lawful dl) {0, 1} (by rw [facts.2.2.2.2.2.2.1]; decide) _ _ _ _ _ _ _ out
    (by simp) hd _ rfl ?_ ?_ ?_ ?_ (Or.inl (by simp))).1
  · intro dh k rnd vk vk' hm
    simp only [List.mem_append, List.mem_cons, List.not_mem_nil, or_false, false_or, reduceCtorEq,
      DCall.deals.injEq] at hm
    obtain ⟨-, rfl, -⟩ := hm
    exact ⟨by decide +kernel, by decide +kernel⟩
  · intro dd vk vk' hm _ hv
    simp only [List.mem_append, List.mem_cons, List.not_mem_nil, or_false, false_or, reduceCtorEq,
      DCall.deal.injEq] at hm
    obtain ⟨rfl, -⟩ := hm
    exfalso
    revert hv
    decide +kernel
  · intro r k hm _ _
    simp only [List.mem_append, List.mem_cons, List.not_mem_nil, or_false, false_or, reduceCtorEq,
      DCall.response.injEq] at hm
    obtain ⟨rfl, -⟩ := hm
    decide +kernel
  · intro l hl
    simp only [Finset.mem_insert, Finset.mem_singleton] at hl
    rcases hl with rfl | rfl
    · exact ⟨by decide, Or.inl f8.symm⟩
    · exact ⟨by decide, Or.inr ⟨answer0 5 1 true, 1, by simp, by rw [f8]; rfl, rfl,
        (isAuth_spec _).2 (by decide +kernel), rfl⟩⟩

open DkgRobustExample Toy in
/-- At participant 1, its own approval of the deal of participant 2 comes back marked as an answer to
dealer 0; then the deal of dealer 0 gets no answer. -/
example : ∀ resp, ((dRun envDI ((net envDI).D 1)
    [.deal ((net envDI).dealMsg envDI 2 1) 5 1, .response ⟨0, ((net envDI).respMsg envDI 2 1).response⟩ 1]).processDeal
      envDI ((net envDI).dealMsg envDI 0 1) 5 1).2 ≠ .ok resp := by
  intro resp
  have h : (match (dRun envDI ((net envDI).D 1)
      [.deal ((net envDI).dealMsg envDI 2 1) 5 1,
       .response ⟨0, ((net envDI).respMsg envDI 2 1).response⟩ 1]).verifiers.get 0 with
    | some v => (v.aggregator.responses.get 1).isSome
    | none => false) = true := by decide +kernel
  split at h
  · rename_i v hv
    obtain ⟨r, hr⟩ := Option.isSome_iff_exists.1 h
    exact C109_replayed_answer envDI 5 [6, 10, 4] (by decide +kernel) 2 1 [6] _ (start 1 (by decide)) _ 0 v hv r
      (by rw [facts.2.2.2.2.2.2.2.2]; exact hr) _ rfl 5 1 resp
  · cases h

end Kyber.Props
