/-
Property C143: resharing again and again (`src/share/dkg/pedersen/dkg.rs`), also on edwards25519.
-/
import Verif.Props.DkgReshareSilent
import Verif.Props.EdBincode
import Verif.Props.Setup

set_option linter.unusedSectionVars false

namespace Kyber.Props

open Kyber Kyber.Poly Kyber.Spec Kyber.VssP Kyber.DkgP

variable {F G : Type} [Field F] [AddCommGroup G] [DecidableEq G] [SMul F G]

/-- The key share belongs to holder `i` of the polynomial `f`. -/
def HoldsOf (S : Suite F G) (f : List F) (i : Nat) (k : DistKeyShare F G) : Prop :=
  k.commits = f.map (fun a => a • S.base) ∧ k.share = ⟨i, polyVal f ((i + 1 : Nat) : F)⟩

/-- Any number of resharings, one after the other: `B` are the holders after the last one, `κ` their keys, `f`
the shared polynomial. In each, some of the holders (`A`) deal the shares they got in the one before, some of the
new nodes (`B'`) take part, and these ask for their key when all messages of those who take part have arrived, in
any order; the groups, thresholds, keys and the random values are new each time. `f0` is the first
polynomial. -/
inductive Epochs (q : Nat) (E : DkgEnv F G) (f0 : List F) :
    List F → Finset Nat → (Nat → DistKeyShare F G) → Prop
  | start (B : Finset Nat) (κ : Nat → DistKeyShare F G) (h : ∀ i ∈ B, HoldsOf E.suite f0 i (κ i)) :
      Epochs q E f0 f0 B κ
  | next {f : List F} {B : Finset Nat} {κ : Nat → DistKeyShare F G} (prev : Epochs q E f0 f B κ)
      (N : ReNet F G) (hN : N.Honest E) (hn : N.n ≤ q)
      (hC : ∀ j < N.n, ∀ dl ∈ (N.O j).dealer.deals, E.codec.dec (E.codec.enc dl) = some dl)
      (hf : N.f = f) (A B' : Finset Nat) (hA : ∀ j ∈ A, j < N.n) (hAB : A ⊆ B)
      (hshare : ∀ j ∈ A, (N.oc j).share = some (κ j))
      (hB : ∀ i ∈ B', i < N.m) (hne : B'.Nonempty) (ht : N.t ≠ 0) (κ' : Nat → DistKeyShare F G)
      (hκ : ∀ i ∈ B', ∃ z s ord, ReNet.Sched (N.WantedNew i) s ∧ OnlyFromNew A B' i s ∧
        (dRun E (N.D i) (s.map (N.callNew E z i))).distKeyShare E.suite ord = .ok (κ' i)) :
      Epochs q E f0 (newPolyOn N A N.t) B' κ'

theorem HoldsOf.publicKey {S : Suite F G} {f : List F} (hf : f ≠ []) {i : Nat} {k : DistKeyShare F G}
    (h : HoldsOf S f i k) : k.publicKey = .ok (f.getD 0 0 • S.base) := by
  unfold DistKeyShare.publicKey
  rw [h.1]
  cases f with
  | nil => exact absurd rfl hf
  | cons a l => rfl

/-- C143: however often the key is reshared, the holders have shares of one polynomial with the secret of the first
one, and the public key of each of them is the first one. -/
theorem C143_epochs (q : Nat) [CharP F q] (E : DkgEnv F G) (hS : E.suite.Lawful) (hP : E.prims.Lawful)
    (hO : PrimsOk E) (f0 : List F) (h0 : f0 ≠ [])
    (f : List F) (B : Finset Nat) (κ : Nat → DistKeyShare F G) (h : Epochs q E f0 f B κ) :
    f ≠ [] ∧ f.getD 0 0 = f0.getD 0 0 ∧
    ∀ i ∈ B, HoldsOf E.suite f i (κ i) ∧ (κ i).publicKey = .ok (f0.getD 0 0 • E.suite.base) := by
  induction h with
  | start B κ h => exact ⟨h0, rfl, fun i hi => ⟨h i hi, (h i hi).publicKey h0⟩⟩
  | @next f B κ prev N hN hn hC hf A B' hA hAB hshare hB hne ht κ' hκ ih =>
    obtain ⟨ih1, ih2, -⟩ := ih
    have hkey : ∀ i ∈ B', N.f.length ≤ A.card ∧ HoldsOf E.suite (newPolyOn N A N.t) i (κ' i) := by
      intro i hi
      obtain ⟨z, s, ord, hs, ho, hk⟩ := hκ i hi
      obtain ⟨g1, g2⟩ := C142_silent q E hS hP hO N hN hC z hn N.t (by rw [if_pos ht]) A B' hA hB i hi s hs ho
        (.inl ht) ord
      have hen : EnoughNew N N.t B' s ∧ N.oldT ≤ A.card ∧ N.f.length ≤ A.card := by
        by_contra hno
        exact g2 hno _ hk
      obtain ⟨-, -, k, k1, k2, k3, -⟩ := g1 hen
      rw [hk] at k1
      cases k1
      exact ⟨hen.2.2, k2, k3⟩
    have hne' : newPolyOn N A N.t ≠ [] := by
      intro he
      have := congrArg List.length he
      rw [newPolyOn_length] at this
      exact ht this
    obtain ⟨i0, hi0⟩ := hne
    have hhead := newPolyOn_head q N A N.t (by omega) hN.f hA hn (hkey i0 hi0).1
    rw [hf, ih2] at hhead
    refine ⟨hne', hhead, fun i hi => ⟨(hkey i hi).2, ?_⟩⟩
    rw [← hhead]
    exact (hkey i hi).2.publicKey hne'

/-- C143: after any number of resharings any `f.length` holders recover the first secret. -/
theorem C143_recover (q : Nat) [CharP F q] (E : DkgEnv F G) (hS : E.suite.Lawful) (hP : E.prims.Lawful)
    (hO : PrimsOk E) (f0 : List F) (h0 : f0 ≠ [])
    (f : List F) (B : Finset Nat) (κ : Nat → DistKeyShare F G) (h : Epochs q E f0 f B κ)
    (hBq : ∀ i ∈ B, i < q) (ord : MapOrder) (sel : List Nat) (hsel : ∀ i ∈ sel, i ∈ B)
    (hcount : f.length ≤ sel.toFinset.card) :
    Poly.recoverSecret ord (sel.map (fun i => some (κ i).share)) f.length = .ok (f0.getD 0 0) := by
  obtain ⟨h1, h2, h3⟩ := C143_epochs q E hS hP hO f0 h0 f B κ h
  have hi : ∀ i ∈ sel, (κ i).share.i = i := fun i hi => by rw [(h3 i (hsel i hi)).1.2]
  have := C34_recover q ord f0 f h1 h2 (sel.map κ)
    (by
      intro k hk
      obtain ⟨i, hi, rfl⟩ := List.mem_map.1 hk
      rw [(h3 i (hsel i hi)).1.2])
    (by
      intro k hk
      obtain ⟨i, hi', rfl⟩ := List.mem_map.1 hk
      rw [hi i hi']
      exact hBq i (hsel i hi'))
    (by
      have he : List.map ((fun k : DistKeyShare F G => k.share.i) ∘ κ) sel = sel :=
        (List.map_congr_left (g := id) hi).trans (List.map_id _)
      rw [List.map_map, he]
      exact hcount)
  rw [List.map_map] at this
  exact this

/-- C143: the keys of an honest key generation are shares of one polynomial, so resharings can start from
them. -/
theorem C143_dkg (q : Nat) (E : DkgEnv F G) (hS : E.suite.Lawful) (hP : E.prims.Lawful)
    (hO : PrimsOk E) (N : Net F G) (h : N.Honest E)
    (hC : ∀ j < N.n, ∀ dl ∈ (N.D j).dealer.deals, E.codec.dec (E.codec.enc dl) = some dl)
    (T : Nat) (hT : T = if N.t ≠ 0 then N.t else minimumT N.n) (κ : Nat → DistKeyShare F G)
    (hκ : ∀ i < N.n, ∃ z s ord, Schedule N.n i s ∧ Complete N.n i s ∧
      (dRun E (N.D i) (s.map (HMsg.call E N z i))).distKeyShare E.suite ord = .ok (κ i)) :
    Epochs q E (sumPoly N T) (sumPoly N T) (Finset.range N.n) κ := by
  refine .start _ _ (fun i hi => ?_)
  have hi := Finset.mem_range.1 hi
  obtain ⟨z, s, ord, hs, hc, hk⟩ := hκ i hi
  rw [((C33_honest_run E hS hP hO N h hC z T hT i hi s hs).2 hc ord).2] at hk
  have hk := (Res.ok.inj hk).symm
  rw [hk]
  exact ⟨rfl, rfl⟩

/-! ## Examples -/

namespace DkgPExample

open Kyber.Toy

/-- The keys of the old nodes of `qnet`. -/
def qkey (j : Nat) : DistKeyShare (ZMod 11) (ZMod 11) := ⟨[2, 8], ⟨j, [5, 9, 2].getD j 0⟩, []⟩

/-- The histories of the new nodes 0 and 1 of `qnet`. -/
def qsch (i : Nat) : List HMsg := [.resp 2 (1 - i), .deal 2, .deal 0, .resp 0 (1 - i), .timeout]

theorem qsch_ok (i : Nat) (hi : i ∈ ({0, 1} : Finset Nat)) :
    ReNet.Sched (qnet.WantedNew i) (qsch i) ∧ OnlyFromNew {0, 2} {0, 1} i (qsch i) := by
  have hi : i = 0 ∨ i = 1 := by simpa using hi
  refine ⟨⟨?_, ?_⟩, ?_, ?_⟩
  · intro m hm
    simp only [qsch, List.mem_cons, List.not_mem_nil, or_false] at hm
    rcases hi with rfl | rfl <;>
      rcases hm with rfl | rfl | rfl | rfl | rfl <;> simp [ReNet.WantedNew, qnet]
  · intro m hm hm'
    by_cases hin : m ∈ qsch i
    · simp only [qsch, List.mem_cons, List.not_mem_nil, or_false] at hin
      rcases hi with rfl | rfl <;>
        rcases hin with rfl | rfl | rfl | rfl | rfl <;> revert hm hm' <;> decide
    · rw [List.count_eq_zero_of_not_mem hin]; omega
  · intro j; simp [qsch, or_comm]
  · intro j l
    simp only [qsch, List.mem_cons, List.not_mem_nil, HMsg.resp.injEq, reduceCtorEq, false_or, or_false,
      Finset.mem_insert, Finset.mem_singleton]
    omega

/-- A resharing of the keys `qkey` among the old nodes 0 and 2 and the new nodes 0 and 1: the new polynomial is
`[1, 10]`, the secret 1 stays. -/
theorem qepochs : ∃ κ, Epochs 11 envDI [1, 4] [1, 10] {0, 1} κ := by
  have hk : ∀ i ∈ ({0, 1} : Finset Nat), ∃ k,
      (dRun envDI (qnet.D i) ((qsch i).map (qnet.callNew envDI 1 i))).distKeyShare envDI.suite MapOrder.rev = .ok k := by
    intro i hi
    obtain ⟨h, -⟩ := C142_silent 11 envDI envDI_lawful envDI_ok.1 envDI_ok.2.2 qnet
      qnet_honest (fun _ _ _ _ => envDI_ok.2.1 _) 1 (by decide) 2 rfl {0, 2} {0, 1} (by decide) (by decide) i hi
      (qsch i) (qsch_ok i hi).1 (qsch_ok i hi).2 (.inl (by decide)) MapOrder.rev
    have hen : EnoughNew qnet 2 {0, 1} (qsch i) := by
      unfold EnoughNew
      rw [if_pos (by simp [qsch])]
      decide
    obtain ⟨-, -, k, h, -⟩ := h ⟨hen, by decide, by decide⟩
    exact ⟨k, h⟩
  have : Nonempty (DistKeyShare (ZMod 11) (ZMod 11)) := ⟨qkey 0⟩
  choose! κ hκ using hk
  have hp : newPolyOn qnet {0, 2} 2 = [1, 10] := by decide +kernel
  have h := Epochs.next (q := 11) (E := envDI) (f0 := [1, 4]) (f := [1, 4]) (B := {0, 1, 2}) (κ := qkey)
    (.start _ _ (by unfold HoldsOf; decide +kernel))
    qnet qnet_honest (by decide) (fun _ _ _ _ => envDI_ok.2.1 _) rfl {0, 2} {0, 1} (by decide) (by decide)
    (fun j _ => rfl) (by decide) ⟨0, by decide⟩ (by decide) κ
    (fun i hi => ⟨1, qsch i, MapOrder.rev, (qsch_ok i hi).1, (qsch_ok i hi).2, hκ i hi⟩)
  exact ⟨κ, hp ▸ h⟩

/-- `C143_epochs` and `C143_recover` on it. -/
example : ∃ κ : Nat → DistKeyShare (ZMod 11) (ZMod 11), (∀ i ∈ ({0, 1} : Finset Nat),
      HoldsOf envDI.suite [1, 10] i (κ i) ∧ (κ i).publicKey = .ok ((1 : ZMod 11) • envDI.suite.base)) ∧
    recoverSecret MapOrder.id ([1, 0].map (fun i => some (κ i).share)) 2 = .ok 1 := by
  obtain ⟨κ, h⟩ := qepochs
  exact ⟨κ, (C143_epochs 11 envDI envDI_lawful envDI_ok.1 envDI_ok.2.2 [1, 4] (by decide) _ _ κ h).2.2,
    C143_recover 11 envDI envDI_lawful envDI_ok.1 envDI_ok.2.2 [1, 4] (by decide) _ _ κ h (by decide) MapOrder.id [1, 0]
      (by decide) (by decide)⟩

end DkgPExample

end Kyber.Props

/-! ## On edwards25519 -/

namespace Kyber.Ed

open Kyber Kyber.ModInt Kyber.Poly Kyber.Spec Kyber.Props Kyber.DkgP

/-- C143: the deals of a resharing on edwards25519 are read back from their binary form. -/
theorem C143_deals (sha hash : Bytes → Bytes) (hh : ∀ b, (hash b).length < 2 ^ 64)
    (rep : EdPt → Pt) (hr : ∀ p, (rep p).ge.Rep p) (E : DkgEnv (ZMod L) EdPt)
    (hE : E.suite = edSuite sha hash) (hB : E.codec = VssP.binCodec binZ (binEd rep))
    (N : ReNet (ZMod L) EdPt) (h : N.Honest E) (hm : N.m ≤ 2 ^ 64) :
    ∀ j < N.n, ∀ dl ∈ (N.O j).dealer.deals, E.codec.dec (E.codec.enc dl) = some dl := by
  intro j hj dl hd
  rw [hB]
  refine dealer_deals hr (S := E.suite) (by rw [hE]; exact hh) ?_ (old_start h hj).1 dl hd
  rw [newPubs_length]
  exact hm

/-- C143: on edwards25519 a key made by an honest key generation and reshared any number of times stays the same:
what any threshold of the first holders recover, any threshold of the last ones recover, and the public key of all of
them is what `Point::mul` computes from it. -/
theorem C143_ed25519 (sha hash : Bytes → Bytes) (hh : ∀ b, (hash b).length < 2 ^ 64)
    (rep : EdPt → Pt) (hr : ∀ p, (rep p).ge.Rep p) (E : DkgEnv (ZMod L) EdPt)
    (hE : E.suite = edSuite sha hash) (hB : E.codec = VssP.binCodec binZ (binEd rep)) (hP : E.prims.Lawful)
    (hO : PrimsOk E) (N : Net (ZMod L) EdPt) (h : DkgOk E N) (ht : N.t ≠ 0) (hn : N.n ≤ 2 ^ 64)
    (κ0 : Nat → DistKeyShare (ZMod L) EdPt)
    (hκ : ∀ i < N.n, ∃ z s ord, Schedule N.n i s ∧ Complete N.n i s ∧
      (dRun E (N.D i) (s.map (HMsg.call E N z i))).distKeyShare E.suite ord = .ok (κ0 i))
    (f : List (ZMod L)) (B : Finset Nat) (κ : Nat → DistKeyShare (ZMod L) EdPt) (hBL : ∀ i ∈ B, i < L)
    (hep : Epochs L E (sumPoly N N.t) f B κ) :
    ∃ secret : ZMod L, (ptMul (leBytes 32 secret.val) none).Rep (secret • basePt) ∧
      (∀ ord (sel : List Nat), (∀ i ∈ sel, i < N.n) → N.t ≤ sel.toFinset.card →
        recoverSecret ord (sel.map fun i => some (κ0 i).share) N.t = .ok secret) ∧
      (∀ i < N.n, (κ0 i).publicKey = .ok (secret • basePt)) ∧
      (∀ ord (sel : List Nat), (∀ i ∈ sel, i ∈ B) → f.length ≤ sel.toFinset.card →
        recoverSecret ord (sel.map fun i => some (κ i).share) f.length = .ok secret) ∧
      ∀ i ∈ B, (κ i).publicKey = .ok (secret • basePt) := by
  have hS : E.suite.Lawful := hE ▸ edSuite_lawful sha hash
  have hb : E.suite.base = basePt := by rw [hE]; rfl
  have hlen : (sumPoly N N.t).length = N.t := by simp [sumPoly]
  have hne : sumPoly N N.t ≠ [] := by
    intro he
    rw [he] at hlen
    exact ht hlen.symm
  have hC : ∀ j < N.n, ∀ dl ∈ (N.D j).dealer.deals, E.codec.dec (E.codec.enc dl) = some dl := by
    intro j hj dl hd
    rw [hB]
    refine dealer_deals hr (S := E.suite) (by rw [hE]; exact hh) ?_ (honest_new (h.honest hE).fair hj trivial).2.1 dl hd
    unfold Net.pubs
    rw [List.length_map, List.length_range]
    exact hn
  have hnL : N.n ≤ L := hn.trans (by decide +kernel)
  have h0 := C143_dkg L E hS hP hO N (h.honest hE) hC N.t (by rw [if_pos ht]) κ0 hκ
  refine ⟨(sumPoly N N.t).getD 0 0, mul_base_model _, ?_, ?_, ?_, ?_⟩
  · intro ord sel hsel hcount
    have := C143_recover L E hS hP hO _ hne _ _ κ0 h0
      (fun i hi => lt_of_lt_of_le (Finset.mem_range.1 hi) hnL) ord sel (fun i hi => Finset.mem_range.2 (hsel i hi))
      (by rw [hlen]; exact hcount)
    rwa [hlen] at this
  · intro i hi
    rw [← hb]
    exact ((C143_epochs L E hS hP hO _ hne _ _ κ0 h0).2.2 i (Finset.mem_range.2 hi)).2
  · intro ord sel hsel hcount
    exact C143_recover L E hS hP hO _ hne _ _ κ hep hBL ord sel hsel hcount
  · intro i hi
    rw [← hb]
    exact ((C143_epochs L E hS hP hO _ hne _ _ κ hep).2.2 i hi).2

/-! The hypotheses of `C143_ed25519` with a resharing: two participants generate a key and reshare it among
themselves, in the other order. -/

namespace EpochsExample

open RunsExample

/-- The history of participant `i` of the key generation. -/
def dsch (i : Nat) : List HMsg := [.resp i (1 - i), .deal (1 - i), .deals]

theorem dsch_ok (i : Nat) (hi : i < 2) : Schedule 2 i (dsch i) ∧ Complete 2 i (dsch i) := by
  have hi : i = 0 ∨ i = 1 := by omega
  refine ⟨⟨?_, ?_⟩, ?_⟩
  · intro m hm
    simp only [dsch, List.mem_cons, List.not_mem_nil, or_false] at hm
    rcases hi with rfl | rfl <;> rcases hm with rfl | rfl | rfl <;> simp [HMsg.Wanted]
  · intro m hm
    by_cases hin : m ∈ dsch i
    · simp only [dsch, List.mem_cons, List.not_mem_nil, or_false] at hin
      rcases hi with rfl | rfl <;> rcases hin with rfl | rfl | rfl <;> decide
    · rw [List.count_eq_zero_of_not_mem hin]; omega
  · intro m hw hm
    cases m with
    | deals => simp [dsch]
    | deal j =>
      obtain ⟨h1, h2⟩ := hw
      obtain rfl : j = 1 - i := by omega
      simp [dsch]
    | resp j l =>
      obtain ⟨h1, h2, h3, h4⟩ := hw
      obtain rfl : l = 1 - i := by omega
      obtain rfl : j = i := by omega
      simp [dsch]
    | timeout => exact absurd rfl hm

/-- The history of new node `i` of the resharing. -/
def rsch (i : Nat) : List HMsg := [.deal 1, .resp 1 (1 - i), .resp 0 (1 - i), .deal 0]

theorem rsch_ok (N : ReNet (ZMod L) EdPt) (hn : N.n = 2) (hm : N.m = 2) (i : Nat) (hi : i ∈ ({0, 1} : Finset Nat)) :
    ReNet.Sched (N.WantedNew i) (rsch i) ∧ OnlyFromNew {0, 1} {0, 1} i (rsch i) := by
  have hi : i = 0 ∨ i = 1 := by simpa using hi
  refine ⟨⟨?_, ?_⟩, ?_, ?_⟩
  · intro m hm
    simp only [rsch, List.mem_cons, List.not_mem_nil, or_false] at hm
    rcases hi with rfl | rfl <;>
      rcases hm with rfl | rfl | rfl | rfl <;> simp [ReNet.WantedNew, *]
  · intro m hm hm'
    by_cases hin : m ∈ rsch i
    · simp only [rsch, List.mem_cons, List.not_mem_nil, or_false] at hin
      rcases hi with rfl | rfl <;>
        rcases hin with rfl | rfl | rfl | rfl <;> revert hm hm' <;> decide
    · rw [List.count_eq_zero_of_not_mem hin]; omega
  · intro j; simp [rsch, or_comm]
  · intro j l
    simp only [rsch, List.mem_cons, List.not_mem_nil, HMsg.resp.injEq, reduceCtorEq, false_or, or_false,
      Finset.mem_insert, Finset.mem_singleton]
    omega

theorem pubs_mem (x : Nat → ZMod L) (j : Nat) (hj : j < 2) :
    x j • basePt ∈ (List.range 2).map (fun i => x i • basePt) := List.mem_map.2 ⟨j, List.mem_range.2 hj, rfl⟩

theorem two_epochs (sha hash : Bytes → Bytes) (hh : ∀ b, (hash b).length < 2 ^ 64) :
    ∃ (rep : EdPt → Pt) (E : DkgEnv (ZMod L) EdPt) (N : Net (ZMod L) EdPt) (κ0 κ : Nat → DistKeyShare (ZMod L) EdPt)
      (f : List (ZMod L)),
    (∀ p, (rep p).ge.Rep p) ∧ E.suite = edSuite sha hash ∧ E.codec = VssP.binCodec binZ (binEd rep) ∧
    E.prims.Lawful ∧ PrimsOk E ∧ DkgOk E N ∧ N.t ≠ 0 ∧ N.n ≤ 2 ^ 64 ∧
    (∀ i < N.n, ∃ z s ord, Schedule N.n i s ∧ Complete N.n i s ∧
      (dRun E (N.D i) (s.map (HMsg.call E N z i))).distKeyShare E.suite ord = .ok (κ0 i)) ∧
    (∃ N' : ReNet (ZMod L) EdPt, N'.Honest E ∧ f = newPolyOn N' {0, 1} 2 ∧
      ∀ j < 2, (N'.oc j).share = some (κ0 j)) ∧
    Epochs L E (sumPoly N N.t) f {0, 1} κ := by
  obtain ⟨rep, hr⟩ := exists_rep
  choose D hD using fun (i : Nat) (hi : i < 2) => C93_pedersen_start sha hash 2 2 key i hi le_rfl le_rfl (by decide) 5 [7]
    (by decide)
  let E : DkgEnv (ZMod L) EdPt := ⟨⟨edSuite sha hash, Toy.prims, VssP.binCodec binZ (binEd rep)⟩, fun _ _ => []⟩
  have hS : E.suite.Lawful := edSuite_lawful sha hash
  have hO : PrimsOk E := ⟨fun _ _ => rfl, fun _ _ _ _ => rfl⟩
  let N : Net (ZMod L) EdPt := ⟨2, 2, key, fun _ => 5, fun _ => [7], fun _ _ => 1, fun _ _ => 1, fun _ _ => 1,
    fun _ _ => 1, fun i => if h : i < 2 then D i h else D 0 (by decide)⟩
  have hN : DkgOk E N := ⟨key_inj, fun i _ => accepted_key i, fun _ _ => accepted_one, fun _ _ => accepted_one,
    fun _ _ => accepted_one, fun i (hi : i < 2) => by simp only [N]; rw [dif_pos hi]; exact hD i hi⟩
  have hC : ∀ j < N.n, ∀ dl ∈ (N.D j).dealer.deals, E.codec.dec (E.codec.enc dl) = some dl := by
    intro j hj dl hd
    exact dealer_deals hr (S := E.suite) hh (by unfold Net.pubs; rw [List.length_map, List.length_range]; exact (by decide : 2 ≤ 2 ^ 64))
      (honest_new (hN.honest rfl).fair hj trivial).2.1 dl hd
  have hk0 : ∀ i < 2, ∃ k, (dRun E (N.D i) ((dsch i).map (HMsg.call E N 1 i))).distKeyShare E.suite MapOrder.id =
      .ok k := fun i hi => ⟨_, ((C33_honest_run E hS Toy.prims_lawful hO N (hN.honest rfl) hC 1 2 rfl i hi
        (dsch i) (dsch_ok i hi).1).2 (dsch_ok i hi).2 MapOrder.id).2⟩
  have hne : Nonempty (DistKeyShare (ZMod L) EdPt) := ⟨⟨[], ⟨0, 0⟩, []⟩⟩
  choose! κ0 hκ0 using hk0
  have hκ : ∀ i < N.n, ∃ z s ord, Schedule N.n i s ∧ Complete N.n i s ∧
      (dRun E (N.D i) (s.map (HMsg.call E N z i))).distKeyShare E.suite ord = .ok (κ0 i) :=
    fun i hi => ⟨1, dsch i, MapOrder.id, (dsch_ok i hi).1, (dsch_ok i hi).2, hκ0 i hi⟩
  have h0 := C143_dkg L E hS Toy.prims_lawful hO N (hN.honest rfl) hC 2 rfl κ0 hκ
  have hhold : ∀ i < 2, HoldsOf E.suite (sumPoly N 2) i (κ0 i) := fun i hi =>
    ((C143_epochs L E hS Toy.prims_lawful hO _ (by simp [sumPoly, List.range_succ]) _ _ κ0 h0).2.2 i
      (Finset.mem_range.2 hi)).1
  -- the resharing
  let xn : Nat → ZMod L := fun i => key (1 - i)
  let op := (List.range 2).map (fun i => key i • basePt)
  let np := (List.range 2).map (fun i => xn i • basePt)
  let oc : Nat → Config (ZMod L) EdPt := fun j => ⟨key j, op, none, np, some (κ0 j), 2, 2⟩
  have hst : ∀ j < 2, ∃ d, newDistKeyHandler (edSuite sha hash) (oc j) 3 [4] = .ok d := by
    intro j hj
    refine (C122_new_handler (edSuite sha hash) (oc j) 3 [4] (by decide : 2 - 1 ≤ 1)).2.2.2.2.2.2.2 ⟨?_, .inl (pubs_mem key j hj), ?_⟩
    · exact fun _ => ⟨List.ne_nil_of_mem (pubs_mem key j hj), (by decide : 2 ≠ 0)⟩
    · exact fun _ => ⟨(by decide : 2 ≤ 2), by simp [oc, np, effectiveT], (by decide : 2 < 2 ^ 32)⟩
  have : Nonempty (Dkg (ZMod L) EdPt) := ⟨N.D 0⟩
  choose! O hOk using hst
  let N' : ReNet (ZMod L) EdPt := ⟨2, 2, 2, 2, sumPoly N 2, key, xn, fun _ => [4], fun _ _ => 1, fun _ _ => 1, fun _ _ => 1,
    fun _ _ => 1, oc, fun i => oc (1 - i), O, fun i => O (1 - i)⟩
  have hagree : ∀ j < 2, N'.Agrees E (key j) (oc j) := fun j hj =>
    ⟨rfl, rfl, rfl, rfl, rfl, (fun cs h => by cases h), (fun sh h => by cases h; exact (hhold j hj).1)⟩
  have hN' : N'.Honest E := by
    refine ⟨pubs_nodup key_inj, ?_, fun j _ => (usable_iff sha hash _).2 (accepted_key j),
      fun j _ => (usable_iff sha hash _).2 (accepted_key _), fun _ _ => (usable_iff sha hash _).2 accepted_one,
      fun _ _ => (usable_iff sha hash _).2 accepted_one, fun _ _ => (usable_iff sha hash _).2 accepted_one,
      by simp [N', sumPoly, List.range_succ], hagree, fun i (hi : i < 2) => hagree (1 - i) (by omega),
      fun j hj => ⟨κ0 j, rfl, by rw [(hhold j hj).2]⟩, fun j hj => ⟨3, hOk j hj⟩,
      fun i (hi : i < 2) => ⟨3, [4], hOk (1 - i) (by omega)⟩, fun i _ => rfl,
      fun i (hi : i < 2) _ => ⟨1 - i, show 1 - i < 2 by omega, rfl, rfl⟩⟩
    refine pubs_nodup (x := xn) (n := 2) (fun i hi j hj he => ?_)
    have := key_inj (1 - i) (by omega) (1 - j) (by omega) he
    omega
  have hC' := C143_deals sha hash hh rep hr E rfl rfl N' hN' (by decide : 2 ≤ 2 ^ 64)
  have hL : N'.n ≤ L := (by decide +kernel : 2 ≤ L)
  have hk : ∀ i ∈ ({0, 1} : Finset Nat), ∃ k,
      (dRun E (N'.D i) ((rsch i).map (N'.callNew E 1 i))).distKeyShare E.suite MapOrder.rev = .ok k := by
    intro i hi
    obtain ⟨h, -⟩ := C142_silent L E hS Toy.prims_lawful hO N' hN' hC' 1 hL 2 rfl {0, 1} {0, 1}
      (by decide : ∀ j ∈ ({0, 1} : Finset Nat), j < 2) (by decide : ∀ j ∈ ({0, 1} : Finset Nat), j < 2)
      i hi (rsch i) (rsch_ok N' rfl rfl i hi).1 (rsch_ok N' rfl rfl i hi).2 (.inl (by decide : 2 ≠ 0)) MapOrder.rev
    have hen : EnoughNew N' 2 {0, 1} (rsch i) := by
      unfold EnoughNew
      rw [if_neg (by simp [rsch])]
      exact (by decide : ({0, 1} : Finset Nat) = Finset.range 2)
    obtain ⟨-, -, k, h, -⟩ := h ⟨hen, (by decide : 2 ≤ ({0, 1} : Finset Nat).card), by simp [N', sumPoly]⟩
    exact ⟨k, h⟩
  choose! κ hκ' using hk
  refine ⟨rep, E, N, κ0, κ, newPolyOn N' {0, 1} 2, hr, rfl, rfl, Toy.prims_lawful, hO, hN, (by decide : 2 ≠ 0), (by decide : 2 ≤ 2 ^ 64), hκ,
    ⟨N', hN', rfl, fun _ _ => rfl⟩, ?_⟩
  exact .next h0 N' hN' hL hC' rfl {0, 1} {0, 1} (by decide : ∀ j ∈ ({0, 1} : Finset Nat), j < 2)
    (by decide : ({0, 1} : Finset Nat) ⊆ Finset.range 2) (fun _ _ => rfl) (by decide : ∀ j ∈ ({0, 1} : Finset Nat), j < 2) ⟨0, by decide⟩
    (by decide : 2 ≠ 0) κ
    (fun i hi => ⟨1, rsch i, MapOrder.rev, (rsch_ok N' rfl rfl i hi).1, (rsch_ok N' rfl rfl i hi).2, hκ' i hi⟩)

end EpochsExample

end Kyber.Ed
