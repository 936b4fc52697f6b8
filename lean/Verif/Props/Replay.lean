/-
C153: messages of an earlier run of the key generation.
-/
import Verif.Spec.Replay
import Verif.Spec.Ok
import Verif.Props.DkgPedersenHonest
import Verif.Props.AgreementPedersen
import Verif.Lemmas.Orders

namespace Kyber.Props

open Kyber.Poly Kyber.VssP Kyber.DkgP Kyber.Spec

/-- C153 as one would expect it: a participant that has just been set up refuses a deal that a dealer made in an
earlier run, if it is not by chance the one of this run. -/
def C153_statement : Prop :=
  ∀ (F G : Type) [Field F] [AddCommGroup G] [DecidableEq G] [DistribSMul F G] (E : DkgEnv F G) (_ : E.suite.Lawful)
    (_ : E.prims.Lawful) (_ : PrimsOk E) (N M : Net F G) (_ : N.Honest E) (_ : M.Honest E) (_ : SameGroup N M)
    (_ : ∀ j < N.n, ∀ dl ∈ (N.D j).dealer.deals ++ (M.D j).dealer.deals, E.codec.dec (E.codec.enc dl) = some dl)
    (k z : F) (i j : Nat) (r : DkgP.Response), i < N.n → j < N.n → j ≠ i →
    M.dealMsg E j i ≠ N.dealMsg E j i → ((N.D i).processDeal E (M.dealMsg E j i) k z).2 ≠ .ok r

/-- The cipher authenticates the additional data: what was sealed with one opens with no other of the same length,
whatever the keys. -/
def Authentic (P : Dh.Prims) : Prop :=
  ∀ key key' nonce data aad aad' c m, P.gcmSeal key nonce data aad = some c → P.gcmOpen key' nonce c aad' = some m →
    key.length = 32 → key'.length = 32 → aad.length = aad'.length → aad = aad'

/-- The coefficients of the sum of the secret polynomials, those of the run `M` for the dealers in `old`. -/
def mixedPoly {F G : Type} [Field F] (N M : Net F G) (old : Nat → Bool) (T : Nat) : List F :=
  (List.range T).map (fun c => ∑ j ∈ Finset.range N.n,
    (if old j then netPoly M T j else netPoly N T j).getD c 0)

namespace Replay

variable {F G : Type} [Field F] [AddCommGroup G] [DecidableEq G]

/-- The group in which the dealers in `old` are those of the run `M`. -/
def mix (N M : Net F G) (old : Nat → Bool) (i : Nat) : Net F G where
  n := N.n
  t := N.t
  x := N.x
  sec j := if old j then M.sec j else N.sec j
  draws j := if old j then M.draws j else N.draws j
  dh j := if old j then M.dh j else N.dh j
  k j := if old j then M.k j else N.k j
  rnd j := if old j then M.rnd j else N.rnd j
  vk l j := if old j && l != i then M.vk l j else N.vk l j
  D j := if old j then M.D j else N.D j

section

variable [SMul F G]

theorem pubs_eq {E : DkgEnv F G} {N M : Net F G} (hg : SameGroup N M) : M.pubs E = N.pubs E := by
  unfold Net.pubs
  rw [hg.n]
  exact List.map_congr_left fun i hi => by rw [hg.x i (List.mem_range.1 hi)]

theorem mix_honest {E : DkgEnv F G} {N M : Net F G} (hN : N.Honest E) (hM : M.Honest E) (hg : SameGroup N M)
    (old : Nat → Bool) (i : Nat) : (mix N M old i).Honest E where
  nodup := hN.nodup
  x := hN.x
  k a b := by
    show Usable E.suite ((if old a then M.k a else N.k a) b • E.suite.base)
    split
    · exact hM.k a b
    · exact hN.k a b
  rnd a b := by
    show Usable E.suite ((if old a then M.rnd a else N.rnd a) b • E.suite.base)
    split
    · exact hM.rnd a b
    · exact hN.rnd a b
  vk a b := by
    show Usable E.suite ((if old b && a != i then M.vk a b else N.vk a b) • E.suite.base)
    split
    · exact hM.vk a b
    · exact hN.vk a b
  start j hj := by
    have hj' : j < N.n := hj
    show newDistKeyGenerator E.suite (N.x j) (N.pubs E) N.t (if old j then M.sec j else N.sec j)
      (if old j then M.draws j else N.draws j) = .ok (if old j then M.D j else N.D j)
    split
    · rw [← hg.x j hj', ← pubs_eq hg, ← hg.t]
      exact hM.start j (by rw [hg.n]; exact hj')
    · exact hN.start j hj'

theorem mix_dealMsg {E : DkgEnv F G} {N M : Net F G} (hg : SameGroup N M) (old : Nat → Bool) (i : Nat) {j : Nat}
    (hj : j < N.n) (l : Nat) :
    (mix N M old i).dealMsg E j l = if old j then M.dealMsg E j l else N.dealMsg E j l := by
  cases ho : old j
  · simp only [Net.dealMsg, Net.enc, mix, ho, Bool.false_eq_true, if_false]
  · simp only [Net.dealMsg, Net.enc, mix, ho, if_true, hg.x j hj]

theorem mix_respMsg {E : DkgEnv F G} {N M : Net F G} (hg : SameGroup N M) (old : Nat → Bool) {i : Nat} {l : Nat}
    (hl : l < N.n) (hli : l ≠ i) (j : Nat) :
    (mix N M old i).respMsg E j l = if old j then M.respMsg E j l else N.respMsg E j l := by
  have hne : (l != i) = true := by simpa using hli
  cases ho : old j
  · simp only [Net.respMsg, mix, ho, Bool.false_eq_true, if_false, Bool.false_and]
  · simp only [Net.respMsg, mix, ho, hne, if_true, Bool.and_self, hg.x l hl]

theorem mix_call {E : DkgEnv F G} {N M : Net F G} (hg : SameGroup N M) {old : Nat → Bool} {i : Nat}
    (hold : old i = false) (z : F) {m : HMsg} (hw : m.Wanted N.n i) :
    m.call E (mix N M old i) z i = replayed E N M old z i m := by
  cases m with
  | deals =>
    simp only [HMsg.call, replayed, mix, hold, Bool.false_eq_true, if_false, Bool.false_and]
  | deal j =>
    obtain ⟨hj, -⟩ := hw
    show DCall.deal _ _ _ = DCall.deal _ _ _
    rw [mix_dealMsg hg old i hj i]
    congr 1
    show (if old j && i != i then M.vk i j else N.vk i j) = N.vk i j
    simp
  | resp j l =>
    obtain ⟨-, hl, hli, -⟩ := hw
    show DCall.response _ _ = DCall.response _ _
    rw [mix_respMsg hg old hl hli j]
  | timeout => rfl

theorem mix_calls {E : DkgEnv F G} {N M : Net F G} (hg : SameGroup N M) {old : Nat → Bool} {i : Nat}
    (hold : old i = false) (z : F) {s : List HMsg} (hw : ∀ m ∈ s, m.Wanted N.n i) :
    s.map (HMsg.call E (mix N M old i) z i) = s.map (replayed E N M old z i) :=
  List.map_congr_left fun m hm => mix_call hg hold z (hw m hm)

theorem mix_sumPoly (N M : Net F G) (old : Nat → Bool) (i T : Nat) :
    sumPoly (mix N M old i) T = mixedPoly N M old T := by
  unfold sumPoly mixedPoly
  refine List.map_congr_left fun c _ => Finset.sum_congr rfl fun j _ => ?_
  congr 1
  unfold netPoly
  cases ho : old j <;> simp [mix, ho]

end

end Replay

section

variable {F G : Type} [Field F] [AddCommGroup G] [DecidableEq G] [DistribSMul F G]

/-- C153, what happens instead. Two runs by the same group, with any secrets, polynomials and nonces. Participant
`i` of the second run gets, for any set `old` of other dealers, the deal and the responses of the first run in
place of those of the second, in any order, with timeouts at any time. Every deal among them is approved, every
response is counted, and in the end participant `i` is certified and returns a key without any error: the sum of
the polynomials, for the dealers in `old` those of the first run. -/
theorem C153_replay (E : DkgEnv F G) (hS : E.suite.Lawful) (hP : E.prims.Lawful) (hO : PrimsOk E) (N M : Net F G)
    (hN : N.Honest E) (hM : M.Honest E) (hg : SameGroup N M)
    (hC : ∀ j < N.n, ∀ dl ∈ (N.D j).dealer.deals ++ (M.D j).dealer.deals, E.codec.dec (E.codec.enc dl) = some dl)
    (z : F) (T : Nat) (hT : T = if N.t ≠ 0 then N.t else minimumT N.n) (i : Nat) (hi : i < N.n) (old : Nat → Bool)
    (hold : old i = false) (s : List HMsg) (hs : Schedule N.n i s) :
    (∀ pre j post, s = pre ++ .deal j :: post →
      ∃ r, ((dRun E (N.D i) (pre.map (replayed E N M old z i))).processDeal E
        (if old j then M.dealMsg E j i else N.dealMsg E j i) (N.vk i j) z).2 = .ok r ∧ r.response.status = true) ∧
    (∀ pre j l post, s = pre ++ .resp j l :: post →
      ((dRun E (N.D i) (pre.map (replayed E N M old z i))).processResponse E
        (if old j then M.respMsg E j l else N.respMsg E j l) z).2 = .ok none) ∧
    (Complete N.n i s → ∀ ord,
      (dRun E (N.D i) (s.map (replayed E N M old z i))).certified ord = true ∧
      (dRun E (N.D i) (s.map (replayed E N M old z i))).distKeyShare E.suite ord = .ok
        { commits := (mixedPoly N M old T).map (fun c => c • E.suite.base)
          share := ⟨i, polyVal (mixedPoly N M old T) ((i + 1 : Nat) : F)⟩
          privatePoly := netPoly N T i }) := by
  have hD : (Replay.mix N M old i).D i = N.D i := by
    show (if old i then M.D i else N.D i) = N.D i
    rw [hold]; rfl
  obtain ⟨hsucc, hfin⟩ := C33_honest_run E hS hP hO (Replay.mix N M old i) (Replay.mix_honest hN hM hg old i)
    (by
      intro j hj dl hdl
      refine hC j hj dl ?_
      have hdl : dl ∈ (if old j then M.D j else N.D j).dealer.deals := hdl
      split at hdl
      · exact List.mem_append_right _ hdl
      · exact List.mem_append_left _ hdl) z T hT i hi s hs
  rw [hD] at hsucc hfin
  have hpre : ∀ pre m post, s = pre ++ m :: post → m.Wanted N.n i ∧
      pre.map (HMsg.call E (Replay.mix N M old i) z i) = pre.map (replayed E N M old z i) := by
    intro pre m post he
    refine ⟨hs.wanted m (by rw [he]; simp), Replay.mix_calls hg hold z fun m' hm' => ?_⟩
    exact hs.wanted m' (by rw [he]; exact List.mem_append_left _ hm')
  refine ⟨fun pre j post he => ?_, fun pre j l post he => ?_, fun hc ord => ?_⟩
  · obtain ⟨hw, hcalls⟩ := hpre pre _ post he
    have := hsucc pre _ post he
    rw [hcalls] at this
    have this : ((dRun E (N.D i) (pre.map (replayed E N M old z i))).processDeal E
      ((Replay.mix N M old i).dealMsg E j i) ((Replay.mix N M old i).vk i j) z).2 =
        .ok ((Replay.mix N M old i).respMsg E j i) := this
    rw [Replay.mix_dealMsg hg old i hw.1 i,
      show (Replay.mix N M old i).vk i j = N.vk i j by simp [Replay.mix]] at this
    exact ⟨_, this, rfl⟩
  · obtain ⟨hw, hcalls⟩ := hpre pre _ post he
    have := hsucc pre _ post he
    rw [hcalls] at this
    have this : ((dRun E (N.D i) (pre.map (replayed E N M old z i))).processResponse E
      ((Replay.mix N M old i).respMsg E j l) z).2 = .ok none := this
    rwa [Replay.mix_respMsg hg old hw.2.1 hw.2.2.1 j] at this
  · have := hfin hc ord
    rw [Replay.mix_calls hg hold z hs.wanted, Replay.mix_sumPoly,
      show netPoly (Replay.mix N M old i) T i = netPoly N T i by simp [netPoly, Replay.mix, hold]] at this
    exact this

/-- C153: whether two participants of the second run that have been handed different parts of the first one end up
with the same public key is decided by the secrets alone, and neither of them is told. -/
theorem C153_split (E : DkgEnv F G) (hS : E.suite.Lawful) (hP : E.prims.Lawful) (hO : PrimsOk E)
    (hB : ∀ s : F, s • E.suite.base = 0 → s = 0) (N M : Net F G)
    (hN : N.Honest E) (hM : M.Honest E) (hg : SameGroup N M)
    (hC : ∀ j < N.n, ∀ dl ∈ (N.D j).dealer.deals ++ (M.D j).dealer.deals, E.codec.dec (E.codec.enc dl) = some dl)
    (z : F) (i i' : Nat) (hi : i < N.n) (hi' : i' < N.n) (old old' : Nat → Bool) (hold : old i = false)
    (hold' : old' i' = false) (s s' : List HMsg) (hs : Schedule N.n i s) (hs' : Schedule N.n i' s')
    (hc : Complete N.n i s) (hc' : Complete N.n i' s') (ord ord' : MapOrder) :
    ∃ key key', (dRun E (N.D i) (s.map (replayed E N M old z i))).distKeyShare E.suite ord = .ok key ∧
      (dRun E (N.D i') (s'.map (replayed E N M old' z i'))).distKeyShare E.suite ord' = .ok key' ∧
      (key.commits.head? = key'.commits.head? ↔
        ∑ j ∈ Finset.range N.n, (if old j then M.sec j else N.sec j) =
          ∑ j ∈ Finset.range N.n, (if old' j then M.sec j else N.sec j)) := by
  set T := if N.t ≠ 0 then N.t else minimumT N.n with hT
  obtain ⟨-, h1⟩ := ((C153_replay E hS hP hO N M hN hM hg hC z T hT i hi old hold s hs).2.2 hc ord)
  obtain ⟨-, h2⟩ := ((C153_replay E hS hP hO N M hN hM hg hC z T hT i' hi' old' hold' s' hs').2.2 hc' ord')
  refine ⟨_, _, h1, h2, ?_⟩
  have hT0 : 0 < T := by
    rw [hT]
    split
    · omega
    · unfold minimumT; omega
  obtain ⟨T', hT'⟩ : ∃ T', T = T' + 1 := ⟨T - 1, by omega⟩
  have hhead : ∀ o : Nat → Bool, ((mixedPoly N M o T).map (fun c => c • E.suite.base)).head? =
      some ((∑ j ∈ Finset.range N.n, (if o j then M.sec j else N.sec j)) • E.suite.base) := by
    intro o
    rw [hT', mixedPoly, List.range_succ_eq_map, List.map_cons, List.map_cons, List.head?_cons]
    congr 2
    refine Finset.sum_congr rfl fun j _ => ?_
    cases o j <;> rfl
  show ((mixedPoly N M old T).map (fun c => c • E.suite.base)).head? =
    ((mixedPoly N M old' T).map (fun c => c • E.suite.base)).head? ↔ _
  rw [hhead, hhead, Option.some.injEq]
  refine ⟨fun h => ?_, fun h => by rw [h]⟩
  rw [← sub_eq_zero]
  refine hB _ ?_
  rw [hS.base_lin.sub, h, sub_self]

/-- C153: exactly which encrypted deals a verifier opens. The dealer signs the ephemeral key only; the cipher is
keyed by the two long-term keys and the list of verifiers. Nothing in it belongs to the run. -/
theorem C153_opens_iff (E : VssP.Env F G) (v : Verifier F G) (e : EncryptedDeal G) (dl : VssP.Deal F G) :
    v.decryptDeal E e = .ok dl ↔
      Schnorr.verify E.suite v.dealer (E.suite.encG e.dhkey) e.signature = .ok () ∧ e.nonce.length = 12 ∧
      ∃ key m, E.prims.hkdf (E.suite.encG (v.longterm • e.dhkey)) v.hkdfContext 32 = some key ∧ key.length = 32 ∧
        E.prims.gcmOpen key e.nonce e.cipher v.hkdfContext = some m ∧ E.codec.dec m = some dl := by
  unfold Verifier.decryptDeal Dh.dhExchange Dh.AEAD.new Dh.hkdf Dh.AEAD.open_ Dh.aesDecrypt Dh.copyOut Dh.nonceSize
  cases Schnorr.verify E.suite v.dealer (E.suite.encG e.dhkey) e.signature with
  | err x => exact ⟨fun h => (nomatch h), fun h => (nomatch h.1)⟩
  | panic => exact ⟨fun h => (nomatch h), fun h => (nomatch h.1)⟩
  | ok u =>
    simp only [Res.mapErr_ok, Res.bind_ok, Option.getD_none, true_and, Option.getD_some]
    cases hk : E.prims.hkdf (E.suite.encG (v.longterm • e.dhkey)) v.hkdfContext 32 with
    | none => exact ⟨fun h => (nomatch h), fun ⟨_, _, _, h, _⟩ => nomatch h⟩
    | some key =>
      simp only [Res.ofOption_some, Res.bind_ok]
      by_cases hl : key.length = 32
      · simp only [hl, ne_eq, not_true_eq_false, if_false, Res.mapErr_ok, Res.bind_ok]
        by_cases hn : e.nonce.length = 12
        · simp only [hn, not_true_eq_false, if_false, true_and]
          cases ho : E.prims.gcmOpen key e.nonce e.cipher v.hkdfContext with
          | none =>
            refine ⟨fun h => (nomatch h), fun ⟨key', m, h1, _, h3, _⟩ => ?_⟩
            cases h1
            rw [ho] at h3
            cases h3
          | some m =>
            simp only [Res.ofOption_some, Res.bind_ok, Res.mapErr_ok]
            constructor
            · intro h
              refine ⟨key, m, rfl, hl, ho, ?_⟩
              cases hd : E.codec.dec m with
              | none => rw [hd] at h; cases h
              | some d => rw [hd] at h; cases h; rfl
            · rintro ⟨key', m', h1, -, h3, h4⟩
              cases h1
              rw [ho] at h3
              cases h3
              rw [h4]
              rfl
        · simp only [hn, not_false_eq_true, if_true, false_and]
          exact ⟨fun h => (nomatch h), False.elim⟩
      · simp only [hl, ne_eq, not_false_eq_true, if_true]
        refine ⟨fun h => (nomatch h), fun ⟨_, key', m, h1, h2, _⟩ => ?_⟩
        cases h1
        exact absurd h2 hl

theorem Replay.vStep_context (E : VssP.Env F G) (v : Verifier F G) (c : VCall F G) :
    (vStep E v c).hkdfContext = v.hkdfContext := by
  cases c with
  | encDeal e k =>
    show (v.processEncryptedDeal E e k).1.hkdfContext = _
    rcases processEncryptedDeal_cases E v e k with (⟨_, h⟩ | h) | ⟨d, -, -, -, ⟨-, h⟩ | ⟨st, -, h, -⟩⟩ <;> rw [h]
  | response r => rfl
  | justification j => rfl
  | timeout => rfl
  | setThreshold t => rfl
  | unsafeSet i b => rfl
  | verifyDeal d b => rfl
  | addResponse r => rfl

theorem Replay.vRun_context (E : VssP.Env F G) (v : Verifier F G) (cs : List (VCall F G)) :
    (vRun E v cs).hkdfContext = v.hkdfContext := by
  induction cs generalizing v with
  | nil => rfl
  | cons c cs ih => exact (ih (vStep E v c)).trans (Replay.vStep_context E v c)

/-- C153, what does refuse a deal of another run: the list of participants and the dealer's key are authenticated
with the deal. If they differ from the verifier's, so that the two contexts (of the length of a hash) differ, and
the cipher authenticates its additional data, the verifier does not open the deal, in whatever state it is.
Missing: runs of the same group, where `C153_replay` shows the opposite. -/
theorem C153_other_group_partial (E : VssP.Env F G) (x secret : F) (pubs : List G) (t : Nat) (draws : List F)
    (d : Dealer F G) (hd : newDealer E.suite x secret pubs t draws = .ok d) (n : Nat) (dh k : F)
    (e : EncryptedDeal G) (he : d.encryptedDeal E n dh k = .ok e) (y : F) (P : G) (pubs' : List G) (v : Verifier F G)
    (hv : newVerifier E.suite y P pubs' = .ok v) (cs : List (VCall F G))
    (hne : context E.suite P pubs' ≠ context E.suite (x • E.suite.base) pubs)
    (hlen : (context E.suite P pubs').length = (context E.suite (x • E.suite.base) pubs).length)
    (hauth : Authentic E.prims)
    (dl : VssP.Deal F G) : (vRun E v cs).decryptDeal E e ≠ .ok dl := by
  intro hop
  obtain ⟨-, -, key, m, -, hk, hop, -⟩ := (C153_opens_iff E _ e dl).1 hop
  rw [Replay.vRun_context] at hop
  have hvc : v.hkdfContext = context E.suite P pubs' := by
    unfold newVerifier at hv
    simp only at hv
    split at hv
    · cases hv
    · cases hv; rfl
  have hdc : d.hkdfContext = context E.suite (x • E.suite.base) pubs := by
    obtain ⟨-, -, h⟩ := newDealer_ok hd
    simp_all
  obtain ⟨key0, data, hk0, hseal⟩ : ∃ key0 data, key0.length = 32 ∧
      E.prims.gcmSeal key0 e.nonce data d.hkdfContext = some e.cipher := by
    unfold Dealer.encryptedDeal at he
    cases hf : findPub d.verifiers n with
    | none => rw [hf] at he; cases he
    | some p =>
      rw [hf] at he
      simp only [Res.ofOption_some, Res.bind_ok] at he
      cases hg : Dh.AEAD.new E.prims E.suite (Dh.dhExchange dh p) d.hkdfContext with
      | err x => rw [hg] at he; cases he
      | panic => rw [hg] at he; cases he
      | ok gcm =>
        rw [hg] at he
        simp only [Res.mapErr_ok, Res.bind_ok] at he
        cases hu : d.deals[n]? with
        | none => rw [hu] at he; cases he
        | some dl =>
          rw [hu] at he
          simp only [Res.unwrap, Res.bind_ok] at he
          unfold Dh.AEAD.seal_ Dh.aesEncrypt at he
          split at he
          · cases he
          · rename_i hk
            cases ho : E.prims.gcmSeal gcm.key (List.replicate Dh.nonceSize 0) (E.codec.enc dl)
              ((some d.hkdfContext).getD []) with
            | none => rw [ho] at he; cases he
            | some c =>
              rw [ho] at he
              simp only [Res.ofOption_some, Res.bind_ok, Dh.copyOut, Res.mapErr_ok] at he
              cases he
              exact ⟨_, _, not_not.1 hk, ho⟩
  rw [hdc] at hseal
  rw [hvc] at hop
  exact hne (hauth key0 key _ data _ _ e.cipher m hseal hop hk0 hk hlen.symm).symm

end

namespace ReplayExample

open Kyber.Toy AgreementPExample

theorem prims_authentic : Authentic Toy.prims := by
  intro key key' nonce data aad aad' c m hs ho hk hk' hl
  simp only [Toy.prims, Option.some.injEq] at hs
  subst hs
  simp only [Toy.prims] at ho
  split at ho
  · rename_i hp
    obtain ⟨rest, hr⟩ := List.isPrefixOf_iff_prefix.1 hp
    simp only [List.append_assoc] at hr
    obtain ⟨-, h2⟩ := List.append_inj hr (by rw [hk, hk'])
    obtain ⟨-, h3⟩ := List.append_inj h2 rfl
    exact (List.append_inj h3 hl.symm).1.symm
  · cases ho

/-- An earlier run by the group of `net`: other secrets and other polynomials. -/
def net0 : Net (ZMod 11) (ZMod 11) :=
  { net envDI with
    sec := fun i => [2, 3, 8].getD i 0
    draws := fun i => [[1], [7], [4]].getD i []
    D := fun i => getDkg (newDistKeyGenerator envDI.suite ([3, 5, 2].getD i 1) [6, 10, 4] 2
      ([2, 3, 8].getD i 0) ([[1], [7], [4]].getD i [])) }

theorem net0_honest : net0.Honest envDI where
  nodup := netDI_honest.nodup
  x := netDI_honest.x
  k := netDI_honest.k
  rnd := netDI_honest.rnd
  vk := netDI_honest.vk
  start i hi := by
    have : i = 0 ∨ i = 1 ∨ i = 2 := by
      have : i < 3 := hi
      omega
    rcases this with rfl | rfl | rfl <;> rfl

theorem same : SameGroup (net envDI) net0 := ⟨rfl, rfl, fun _ _ => rfl⟩

/-- Dealer 2 is the old one. -/
def old2 (j : Nat) : Bool := j == 2

/-- Participant 1 is handed the messages about dealer 2 of the earlier run. It returns the key 7 + 1 + 8, with its
share; participant 0, who gets the messages of this run, the key 7 + 1 + 4. -/
example :
    (∃ key, (dRun envDI ((net envDI).D 1) (DkgPExample.sched.map
      (replayed envDI (net envDI) net0 old2 1 1))).distKeyShare envDI.suite MapOrder.id = .ok key ∧
      key.commits.head? = some ((16 : ZMod 11) • envDI.suite.base)) ∧
    (16 : ZMod 11) • envDI.suite.base ≠ (12 : ZMod 11) • envDI.suite.base := by
  refine ⟨⟨_, ((C153_replay envDI envDI_lawful prims_lawful primsOkDI (net envDI) net0 netDI_honest net0_honest same
    (fun _ _ d _ => codecP_lawful d) 1 2 rfl 1 (by decide) old2 rfl DkgPExample.sched DkgPExample.sched_ok.1).2.2
      DkgPExample.sched_ok.2 MapOrder.id).2, ?_⟩, by decide⟩
  decide +kernel

example := C153_split envDI envDI_lawful prims_lawful primsOkDI Toy.base_inj (net envDI) net0 netDI_honest net0_honest
  same (fun _ _ d _ => codecP_lawful d) 1 1 0 (by decide) (by decide) old2 (fun _ => false) rfl rfl
  DkgPExample.sched (hOrder 3 0) DkgPExample.sched_ok.1 (hOrder_ok 3 0).1 DkgPExample.sched_ok.2 (hOrder_ok 3 0).2
  MapOrder.id MapOrder.id

/-- A verifier of the group opens its deal. -/
example : ∃ (d : Dealer (ZMod 11) (ZMod 11)) (e : EncryptedDeal (ZMod 11)) (v : Verifier (ZMod 11) (ZMod 11))
    (dl : VssP.Deal (ZMod 11) (ZMod 11)),
    newDealer Toy.suite 3 7 [6, 10, 4] 2 [5] = .ok d ∧ d.encryptedDeal Toy.envP 1 2 4 = .ok e ∧
    newVerifier Toy.suite 5 6 [6, 10, 4] = .ok v ∧ v.decryptDeal Toy.envP e = .ok dl := by
  obtain ⟨d, hd⟩ : ∃ d, newDealer Toy.suite (3 : ZMod 11) 7 [6, 10, 4] 2 [5] = .ok d := ⟨_, rfl⟩
  obtain ⟨e, he⟩ : ∃ e, d.encryptedDeal Toy.envP 1 2 4 = .ok e := by cases hd; exact Res.exists_ok (by decide +kernel)
  obtain ⟨v, hv⟩ : ∃ v, newVerifier Toy.suite (5 : ZMod 11) 6 [6, 10, 4] = .ok v := ⟨_, rfl⟩
  obtain ⟨dl, hl⟩ : ∃ dl, v.decryptDeal Toy.envP e = .ok dl := by
    have : e = (match d.encryptedDeal Toy.envP 1 2 4 with | .ok e => e | _ => ⟨0, [], [], []⟩) := by rw [he]
    subst this
    cases hd
    cases hv
    exact Res.exists_ok (by decide +kernel)
  exact ⟨d, e, v, dl, hd, he, hv, hl⟩

/-- The same participant, in a group where somebody else has taken the place of the third, does not. -/
example (dl : VssP.Deal (ZMod 11) (ZMod 11)) (cs : List (VCall (ZMod 11) (ZMod 11))) :
    ∃ (e : EncryptedDeal (ZMod 11)) (v : Verifier (ZMod 11) (ZMod 11)),
    newVerifier envDI.suite 5 6 [6, 10, 3] = .ok v ∧ (vRun envDI.toEnv v cs).decryptDeal envDI.toEnv e ≠ .ok dl := by
  obtain ⟨e, he⟩ : ∃ e, ((net envDI).D 0).dealer.encryptedDeal envDI.toEnv 1 2 4 = .ok e :=
    Res.exists_ok (by decide +kernel)
  exact ⟨e, _, rfl, C153_other_group_partial envDI.toEnv 3 7 [6, 10, 4] 2 [5] _ rfl 1 2 4 e he 5 6 [6, 10, 3] _ rfl cs
    (by decide +kernel) (by decide +kernel) prims_authentic dl⟩

end ReplayExample

/-- C153 is violated: a participant that has just been set up approves a deal of an earlier run. -/
theorem C153_violated : ¬ C153_statement := by
  intro hst
  have h := (C153_replay Toy.envDI Toy.envDI_lawful Toy.prims_lawful AgreementPExample.primsOkDI (Toy.net Toy.envDI)
    ReplayExample.net0 AgreementPExample.netDI_honest ReplayExample.net0_honest ReplayExample.same
    (fun _ _ d _ => Toy.codecP_lawful d) 1 2 rfl 1 (by decide) ReplayExample.old2 rfl [.deal 2]
    ⟨by intro m hm; rw [List.mem_singleton.1 hm]; exact ⟨by decide, by decide⟩,
      fun m _ => (List.count_le_length ..)⟩).1 [] 2 [] rfl
  obtain ⟨r, hr, -⟩ := h
  exact hst (ZMod 11) (ZMod 11) Toy.envDI Toy.envDI_lawful Toy.prims_lawful AgreementPExample.primsOkDI
    (Toy.net Toy.envDI) ReplayExample.net0 AgreementPExample.netDI_honest ReplayExample.net0_honest
    ReplayExample.same (fun _ _ d _ => Toy.codecP_lawful d) _ _ 1 2 r (by decide) (by decide) (by decide)
    (fun he => absurd (congrArg (fun m => m.deal.cipher) he) (by decide +kernel)) hr

end Kyber.Props
