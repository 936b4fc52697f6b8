/-
C99: key pairs of edwards25519.
-/
import Verif.Model.Ed.KeyPair
import Verif.Props.EdSuite
import Verif.Props.EdScalar

namespace Kyber.Ed

open Kyber Kyber.ModInt Kyber.Rand

/-- A key pair is made from the bytes that the stream puts out, by hashing and clamping them. -/
theorem newKeyPair_ok {σ : Type} {sha : Bytes → Bytes} {S : Stream σ} {st st' : σ} {p : Pair} :
    newKeyPair sha S st = (st', .ok p) ↔
      ∃ b, S.xor st (List.replicate 32 0) (List.replicate 32 0) = (st', .ok b) ∧
        p = ⟨ptMul (clampKey (sha b)).1 none, (clampKey (sha b)).1⟩ := by
  unfold newKeyPair Pair.gen newKeyOf newKeyAndSeed Rand.bytes
  rw [List.length_replicate]
  rcases S.xor st (List.replicate 32 0) (List.replicate 32 0) with ⟨s, r⟩
  cases r with
  | ok b =>
    simp only [Prod.mk.injEq, Res.ok.injEq]
    constructor
    · rintro ⟨rfl, rfl⟩
      exact ⟨b, ⟨rfl, rfl⟩, rfl⟩
    · rintro ⟨_, ⟨rfl, rfl⟩, rfl⟩
      exact ⟨rfl, rfl⟩
  | err e => simp
  | panic => simp

/-- `new_key_pair` fails exactly when the stream fails, and then with the error of the stream. -/
theorem C99_failure {σ : Type} (sha : Bytes → Bytes) (S : Stream σ) (st st' : σ) (e : StreamError) :
    newKeyPair sha S st = (st', .err e) ↔ S.xor st (List.replicate 32 0) (List.replicate 32 0) = (st', .err e) := by
  unfold newKeyPair Pair.gen newKeyOf newKeyAndSeed Rand.bytes
  rw [List.length_replicate]
  rcases S.xor st (List.replicate 32 0) (List.replicate 32 0) with ⟨s, r⟩
  cases r <;> simp

/-- The private key is a multiple of 8 of 255 bits, the public key is the private key times the base
point, it generates the subgroup of the base point, and no point of small order survives the private
key. -/
theorem C99_pair {σ : Type} (sha : Bytes → Bytes) (hsha : ∀ b, (sha b).length = 64) (S : Stream σ) (st st' : σ)
    (p : Pair) (h : newKeyPair sha S st = (st', .ok p)) :
    p.priv.length = 32 ∧ 8 ∣ leNat p.priv ∧ 2 ^ 254 ≤ leNat p.priv ∧ leNat p.priv < 2 ^ 255 ∧
      p.pub.Rep (leNat p.priv • basePt) ∧ addOrderOf (leNat p.priv • basePt) = L ∧
      ∀ s : Ext, ∀ hs : s.Valid, ptEq (ptMul p.priv (some s)) extZero = true ↔ 8 • hs.pt = 0 := by
  obtain ⟨b, _, rfl⟩ := newKeyPair_ok.1 h
  obtain ⟨h1, h2, h3, h4, _⟩ := C60_clamp (sha b) (hsha b)
  have h5 := fun s hs => C60_subgroups (sha b) (hsha b) s hs
  refine ⟨h1, Nat.dvd_of_mod_eq_zero h2, h3, h4, mulBase h1 h4, ?_, fun s hs => (h5 s hs).1⟩
  have hk := (h5 extZero null_valid).2
  simp only
  generalize leNat (clampKey (sha b)).1 = k at hk
  have hc : Nat.gcd L k = 1 := (Nat.Prime.coprime_iff_not_dvd prime_L).2 (fun h => hk (Nat.mod_eq_zero_of_dvd h))
  rw [addOrderOf_nsmul, addOrderOf_base, hc, Nat.div_one]

/-- What storing the private key with `marshal_binary` and reading it back with `unmarshal_binary`
gives. -/
def Reloaded (k k' : Bytes) : Prop := ∃ m, scMarshal k = .ok m ∧ ∃ self, scUnmarshal self m = (k', .ok ())

theorem reloaded_iff (k k' : Bytes) : Reloaded k k' ↔ k'.length = 32 ∧ leNat k' = leNat k % L := by
  obtain ⟨m, h1, h2, h3⟩ := C68_marshal k
  constructor
  · rintro ⟨m', g1, self, g2⟩
    rw [h1] at g1
    injection g1 with g1
    subst g1
    rw [(C68_unmarshal self m).1 h2] at g2
    have : m = k' := congrArg Prod.fst g2
    subst this
    exact ⟨h2, h3⟩
  · rintro ⟨g1, g2⟩
    have e : m = k' := leNat_inj (by rw [h2, g1]) (by rw [h3, g2])
    exact ⟨m, h1, scZero, by rw [(C68_unmarshal scZero m).1 h2, e]⟩

/-- The full property: the private key read back acts as the private key that was generated. -/
def C99_statement : Prop :=
  ∀ (σ : Type) (sha : Bytes → Bytes) (S : Stream σ) (st st' : σ) (p : Pair) (k' : Bytes),
    (∀ b, (sha b).length = 64) → newKeyPair sha S st = (st', .ok p) → Reloaded p.priv k' →
    ∀ s : Ext, s.Valid → ptEq (ptMul k' (some s)) (ptMul p.priv (some s)) = true

/-- The key read back still belongs to the public key. -/
theorem C99_reload_public {σ : Type} (sha : Bytes → Bytes) (hsha : ∀ b, (sha b).length = 64) (S : Stream σ)
    (st st' : σ) (p : Pair) (h : newKeyPair sha S st = (st', .ok p)) (k' : Bytes) (hk : Reloaded p.priv k') :
    ptEq (ptMul k' none) p.pub = true := by
  obtain ⟨_, _, _, _, h5, _⟩ := C99_pair sha hsha S st st' p h
  obtain ⟨g1, g2⟩ := (reloaded_iff _ _).1 hk
  have hlt : leNat k' < 2 ^ 255 := by
    rw [g2]
    exact lt_trans (Nat.mod_lt _ (by decide)) (by decide +kernel)
  rw [ptEq_iff (mulBase g1 hlt) h5, g2, mod_smul_base]

/-- It acts as the generated key exactly on the points for which a certain multiple is neutral; in
particular on the subgroup of the base point. -/
theorem C99_reload_exact_partial {σ : Type} (sha : Bytes → Bytes) (hsha : ∀ b, (sha b).length = 64) (S : Stream σ)
    (st st' : σ) (p : Pair) (h : newKeyPair sha S st = (st', .ok p)) (k' : Bytes) (hk : Reloaded p.priv k')
    (s : Ext) (hs : s.Valid) :
    (ptEq (ptMul k' (some s)) (ptMul p.priv (some s)) = true ↔ (L * (leNat p.priv / L)) • hs.pt = 0) ∧
      (L • hs.pt = 0 → ptEq (ptMul k' (some s)) (ptMul p.priv (some s)) = true) := by
  obtain ⟨h1, _, _, h4, _, _⟩ := C99_pair sha hsha S st st' p h
  obtain ⟨g1, g2⟩ := (reloaded_iff _ _).1 hk
  have hlt : leNat k' < 2 ^ 255 := by
    rw [g2]
    exact lt_trans (Nat.mod_lt _ (by decide)) (by decide +kernel)
  have key : ptEq (ptMul k' (some s)) (ptMul p.priv (some s)) = true ↔ (L * (leNat p.priv / L)) • hs.pt = 0 := by
    rw [ptEq_iff (mulPt g1 hlt hs.rep) (mulPt h1 h4 hs.rep), g2]
    conv_lhs => rhs; rw [← Nat.mod_add_div (leNat p.priv) L, add_smul]
    exact left_eq_add
  refine ⟨key, fun hL => key.2 ?_⟩
  rw [mul_comm, mul_smul, hL, smul_zero]

/-- A clamped key is never a multiple of 8 any more after the reduction. -/
theorem clamped_mod {k : Nat} (h8 : 8 ∣ k) (h1 : 2 ^ 254 ≤ k) (h2 : k < 2 ^ 255) : (k % L) % 8 ≠ 0 := by
  have l8 : L % 8 = 5 := by decide +kernel
  have lo : L ≤ 2 ^ 254 := by decide +kernel
  have hi : 2 ^ 255 ≤ L * 8 := by decide +kernel
  have hr : k % L < L := Nat.mod_lt _ (by decide)
  have hq : k % L + L * (k / L) = k := Nat.mod_add_div k L
  generalize L = l at *
  generalize k % l = r at *
  generalize k / l = q at *
  generalize 2 ^ 254 = lo' at *
  generalize 2 ^ 255 = hi' at *
  have q7 : q < 8 := by
    by_contra hc
    have := Nat.mul_le_mul_left l (not_lt.1 hc)
    omega
  interval_cases q <;> omega

/-- Every generated key is affected: the key that was stored and read back does not clear the points
of order 8, while the generated key does. -/
theorem C99_violated_always {σ : Type} (sha : Bytes → Bytes) (hsha : ∀ b, (sha b).length = 64) (S : Stream σ)
    (st st' : σ) (p : Pair) (h : newKeyPair sha S st = (st', .ok p)) (k' : Bytes) (hk : Reloaded p.priv k')
    (s : Ext) (hs : s.Valid) (ho : addOrderOf hs.pt = 8) :
    ptEq (ptMul p.priv (some s)) extZero = true ∧ ptEq (ptMul k' (some s)) extZero = false ∧
      ptEq (ptMul k' (some s)) (ptMul p.priv (some s)) = false := by
  obtain ⟨h1, h2, h3, h4, _, _, h7⟩ := C99_pair sha hsha S st st' p h
  obtain ⟨g1, g2⟩ := (reloaded_iff _ _).1 hk
  have hlt : leNat k' < 2 ^ 255 := by
    rw [g2]
    exact lt_trans (Nat.mod_lt _ (by decide)) (by decide +kernel)
  have z8 : 8 • hs.pt = 0 := by rw [← ho]; exact addOrderOf_nsmul_eq_zero _
  have zk : leNat p.priv • hs.pt = 0 := by
    obtain ⟨c, hc⟩ := h2
    rw [hc, mul_comm, mul_smul, z8, smul_zero]
  have nk : leNat k' • hs.pt ≠ 0 := by
    intro h0
    have := addOrderOf_dvd_of_nsmul_eq_zero h0
    rw [ho, g2] at this
    exact clamped_mod h2 h3 h4 (Nat.mod_eq_zero_of_dvd this)
  refine ⟨(h7 s hs).2 z8, ?_, ?_⟩
  · rw [← Bool.not_eq_true, ptEq_iff (mulPt g1 hlt hs.rep) extZero_rep]
    exact nk
  · rw [← Bool.not_eq_true, ptEq_iff (mulPt g1 hlt hs.rep) (mulPt h1 h4 hs.rep), zk]
    exact nk

/-- A stream that puts out zeros, and a hash that does. -/
def nullStream : Stream Unit := ⟨fun _ _ src => ((), .ok src)⟩
def zeroSha : Bytes → Bytes := fun _ => List.replicate 64 0

/-- A key pair is generated, so that the theorems about generated key pairs apply. -/
theorem zero_pair : ∃ p, newKeyPair zeroSha nullStream () = ((), .ok p) :=
  ⟨_, newKeyPair_ok.2 ⟨_, rfl, rfl⟩⟩

theorem C99_violated : ¬ C99_statement := by
  intro h
  obtain ⟨p, hp⟩ := zero_pair
  have hsha : ∀ b, (zeroSha b).length = 64 := fun _ => List.length_replicate ..
  obtain ⟨m, h1, h2, h3⟩ := C68_marshal p.priv
  have hr : Reloaded p.priv m := (reloaded_iff _ _).2 ⟨h2, h3⟩
  obtain ⟨s, hs⟩ : ∃ s : Ext, s.Rep tPt := ⟨_, (setBytes_enc tPt).2⟩
  have hv := hs.valid
  have e : hv.pt = tPt := hv.rep.unique hs
  have := (C99_violated_always zeroSha hsha nullStream () () p hp m hr s hv (by rw [e]; exact addOrderOf_tPt)).2.2
  rw [h Unit zeroSha nullStream () () p m hsha hp hr s hv] at this
  cases this

/-- Points of order 8 can be received: `unmarshal_binary` accepts the encoding of one. -/
example : ∃ (s : Ext) (hs : s.Valid), (extDefault.setBytes (ptEnc tPt)) = (s, true) ∧ addOrderOf hs.pt = 8 := by
  obtain ⟨h1, h2⟩ := setBytes_enc tPt
  generalize extDefault.setBytes (ptEnc tPt) = r at h1 h2 ⊢
  obtain ⟨s, ok⟩ := r
  subst h1
  refine ⟨s, h2.valid, rfl, ?_⟩
  rw [h2.valid.rep.unique h2]
  exact addOrderOf_tPt

/-- `C99_reload_public` and `C99_reload_exact_partial` for the pair made from a stream of zeros. -/
example : ∃ p k', newKeyPair zeroSha nullStream () = ((), .ok p) ∧ Reloaded p.priv k' ∧
    ptEq (ptMul k' none) p.pub = true ∧ ptEq (ptMul k' (some baseExt)) (ptMul p.priv (some baseExt)) = true := by
  have hsha : ∀ b, (zeroSha b).length = 64 := fun _ => List.length_replicate ..
  obtain ⟨p, hp⟩ : ∃ p, newKeyPair zeroSha nullStream () = ((), .ok p) := ⟨_, newKeyPair_ok.2 ⟨_, rfl, rfl⟩⟩
  have hk : Reloaded p.priv (leBytes 32 (leNat p.priv % L)) :=
    (reloaded_iff _ _).2 ⟨length_leBytes _ _, leNat_leBytes_mod _⟩
  refine ⟨p, _, hp, hk, C99_reload_public zeroSha hsha nullStream () () p hp _ hk,
    (C99_reload_exact_partial zeroSha hsha nullStream () () p hp _ hk baseExt base_valid).2 ?_⟩
  rw [base_valid.rep.unique baseExt_rep]
  exact L_smul_base

end Kyber.Ed
