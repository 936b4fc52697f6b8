/-
C131: EdDSA private keys of edwards25519, stored and read back; C15 on edwards25519.
-/
import Verif.Model.Ed.Eddsa
import Verif.Props.EdKeyPair
import Verif.Props.EdSig

namespace Kyber.Ed

open Kyber Kyber.ModInt Kyber.Rand Kyber.Schnorr

/-- `EdDSA::new` makes the key that belongs to the 32 bytes it reads from the stream. -/
theorem C131_generate {σ : Type} (sha : Bytes → Bytes) (S : Stream σ) (st st' : σ) (e : EdKey) :
    edKeyGen sha S st = (st', .ok e) ↔
      ∃ b, S.xor st (List.replicate 32 0) (List.replicate 32 0) = (st', .ok b) ∧ e = edKeyNew sha b := by
  unfold edKeyGen newKeyAndSeed Rand.bytes edKeyNew
  rw [List.length_replicate]
  rcases S.xor st (List.replicate 32 0) (List.replicate 32 0) with ⟨s, r⟩
  cases r with
  | ok b =>
    simp only [Prod.mk.injEq, Res.ok.injEq]
    constructor
    · rintro ⟨rfl, rfl⟩
      exact ⟨b, ⟨rfl, rfl⟩, rfl⟩
    · rintro ⟨_, ⟨rfl, rfl⟩, rfl⟩
      exact ⟨rfl, rfl⟩
  | err e => simp
  | panic => simp

/-- It signs as RFC 8032 prescribes for these bytes. -/
theorem C131_generated_signs {σ : Type} (sha : Bytes → Bytes) (hsha : ∀ b, (sha b).length = 64) (S : Stream σ)
    (st st' : σ) (e : EdKey) (h : edKeyGen sha S st = (st', .ok e)) :
    ∃ b, S.xor st (List.replicate 32 0) (List.replicate 32 0) = (st', .ok b) ∧ e.seed = b ∧
      ptMarshal e.pub = Rfc8032.pubKey sha b ∧ ∀ msg, eddsaSign sha e msg = .ok (Rfc8032.sign sha b msg) := by
  obtain ⟨b, h1, rfl⟩ := (C131_generate sha S st st' e).1 h
  exact ⟨b, h1, rfl, (C87_rfc_key sha b (hsha b)).1, fun msg => C87_rfc_sign sha b msg (hsha b)⟩

/-- Which byte strings are read, and what they give: the key of the first half. An error leaves the
receiver alone. -/
theorem C131_read (sha : Bytes → Bytes) (self : EdKey) (b : Bytes) :
    (b.length = 64 → edKeyUnmarshal sha self b = (edKeyNew sha (b.take 32), .ok ())) ∧
    (b.length ≠ 64 → edKeyUnmarshal sha self b = (self, .err .marshalling)) := by
  unfold edKeyUnmarshal edKeyNew
  exact ⟨fun h => if_neg (by omega), fun h => if_pos h⟩

/-- The stored form of the key of a seed is the seed and the public key of RFC 8032, and reading it back
gives the very same key, so that it signs alike and is equal. -/
theorem C131_store (sha : Bytes → Bytes) (self : EdKey) (seed : Bytes) (hs : seed.length = 32)
    (hd : (sha seed).length = 64) :
    edKeyMarshal (edKeyNew sha seed) = .ok (seed ++ Rfc8032.pubKey sha seed) ∧
    edKeyUnmarshal sha self (seed ++ Rfc8032.pubKey sha seed) = (edKeyNew sha seed, .ok ()) ∧
    edKeyEq (edKeyNew sha seed) (edKeyNew sha seed) = true := by
  obtain ⟨h1, h2, h3, h4, h5, h6⟩ := C60_clamp _ hd
  obtain ⟨k1, -⟩ := C87_rfc_key sha seed hd
  have hl : (Rfc8032.pubKey sha seed).length = 32 := by
    unfold Rfc8032.pubKey Rfc8032.enc
    rw [length_leBytes]
  have hr : (edKeyNew sha seed).pub.Rep (leNat (clampKey (sha seed)).1 • basePt) := mulBase h1 h4
  refine ⟨?_, ?_, ?_⟩
  · unfold edKeyMarshal
    simp only
    rw [k1, if_neg (not_not.2 hs : ¬ (edKeyNew sha seed).seed.length ≠ 32), if_neg (by simpa using hl)]
    rfl
  · rw [(C131_read sha self _).1 (by rw [List.length_append, hs, hl]), List.take_left' hs]
  · unfold edKeyEq
    simp [(ptEq_iff hr hr).2 rfl]

/-- The intended property: what is read is what would be written, so that a stored key whose halves do not
belong together is refused. -/
def C131_statement : Prop :=
  ∀ (sha : Bytes → Bytes) (self e : EdKey) (b : Bytes), (∀ b, (sha b).length = 64) →
    edKeyUnmarshal sha self b = (e, .ok ()) → edKeyMarshal e = .ok b

/-- What holds, exactly: the bytes read are those that would be written if and only if the second half is
the public key of the first. -/
theorem C131_read_exact_partial (sha : Bytes → Bytes) (hsha : ∀ b, (sha b).length = 64) (self e : EdKey) (b : Bytes)
    (h : edKeyUnmarshal sha self b = (e, .ok ())) :
    edKeyMarshal e = .ok b ↔ b.drop 32 = Rfc8032.pubKey sha (b.take 32) := by
  have hb : b.length = 64 := by
    by_contra hb
    rw [(C131_read sha self b).2 hb] at h
    cases h
  rw [(C131_read sha self b).1 hb] at h
  injection h with h
  subst h
  have ht : (b.take 32).length = 32 := by rw [List.length_take]; omega
  rw [(C131_store sha self _ ht (hsha _)).1, Res.ok.injEq]
  constructor
  · intro e
    have := congrArg (List.drop 32) e
    rw [List.drop_left' ht] at this
    exact this.symm
  · intro e
    rw [← e, List.take_append_drop]

/-- Every stored key whose second half is wrong is read without an error; the public key it states is
replaced. -/
theorem C131_mismatch_accepted (sha : Bytes → Bytes) (hsha : ∀ b, (sha b).length = 64) (self : EdKey)
    (seed other : Bytes) (hs : seed.length = 32) (ho : other.length = 32) (hne : other ≠ Rfc8032.pubKey sha seed) :
    ∃ e, edKeyUnmarshal sha self (seed ++ other) = (e, .ok ()) ∧ ptMarshal e.pub = Rfc8032.pubKey sha seed ∧
      ptMarshal e.pub ≠ other := by
  refine ⟨edKeyNew sha seed, ?_, (C87_rfc_key sha seed (hsha seed)).1, ?_⟩
  · rw [(C131_read sha self _).1 (by rw [List.length_append, hs, ho]), List.take_left' hs]
  · rw [(C87_rfc_key sha seed (hsha seed)).1]
    exact fun e => hne e.symm

theorem C131_violated : ¬ C131_statement := by
  intro h
  have hsha : ∀ b, (zeroSha b).length = 64 := fun _ => List.length_replicate ..
  obtain ⟨o, ho, hne⟩ : ∃ o : Bytes, o.length = 32 ∧ o ≠ Rfc8032.pubKey zeroSha (List.replicate 32 0) := by
    by_cases e : Rfc8032.pubKey zeroSha (List.replicate 32 0) = List.replicate 32 0
    · refine ⟨List.replicate 32 1, rfl, ?_⟩
      rw [e]
      decide
    · exact ⟨List.replicate 32 0, rfl, fun e' => e e'.symm⟩
  obtain ⟨e, h1, h2, h3⟩ := C131_mismatch_accepted zeroSha hsha edKeyDefault (List.replicate 32 0) o rfl ho hne
  have h4 := (C131_read_exact_partial zeroSha hsha _ _ _ h1).1 (h _ _ _ _ hsha h1)
  rw [List.drop_left' (List.length_replicate ..), List.take_left' (List.length_replicate ..)] at h4
  exact hne h4

/-- A key made from a key pair signs but cannot be stored, nor can the default value: `marshal_binary`
panics. -/
theorem C131_pair_panics (p : Pair) : edKeyMarshal (edKeyOfPair p) = .panic ∧ edKeyMarshal edKeyDefault = .panic :=
  ⟨rfl, rfl⟩

/-- Two EdDSA keys are equal exactly when seed, prefix and the bytes of the secret are the same and the
public keys are the same point. -/
theorem C131_eq (a b : EdKey) (ha : a.pub.Valid) (hb : b.pub.Valid) :
    edKeyEq a b = true ↔ a.seed = b.seed ∧ a.prefix_ = b.prefix_ ∧ a.secret = b.secret ∧ ha.pt = hb.pt := by
  unfold edKeyEq
  rw [← ptEq_iff ha.rep hb.rep]
  by_cases h1 : a.seed = b.seed <;> by_cases h2 : a.prefix_ = b.prefix_ <;> by_cases h3 : a.secret = b.secret <;>
    cases h4 : ptEq a.pub b.pub <;> simp [h1, h2, h3]


/-- Two keys with the same fields and points in the same coordinates. -/
example := C131_eq ⟨scOne, baseExt, [1], [2]⟩ ⟨scOne, baseExt, [1], [2]⟩ base_valid base_valid

/-- What signing computes, for any key with a secret of 32 bytes. -/
theorem eddsaSign_eq (sha : Bytes → Bytes) (e : EdKey) (p : EdPt) (he : e.secret.length = 32) (hp : e.pub.Rep p)
    (msg : Bytes) : ∃ s : Bytes, s.length = 32 ∧
      eddsaSign sha e msg = .ok (ptEnc (leNat (sha (e.prefix_ ++ msg)) • basePt) ++ s) ∧
      leNat s = (leNat (sha (e.prefix_ ++ msg)) + leNat e.secret *
        leNat (sha (ptEnc (leNat (sha (e.prefix_ ++ msg)) • basePt) ++ ptEnc p ++ msg))) % L := by
  obtain ⟨r, r1, r2, r3⟩ := fromDigest (sha (e.prefix_ ++ msg))
  have hR : ptMarshal (ptMul r none) = ptEnc (leNat (sha (e.prefix_ ++ msg)) • basePt) := by
    rw [marshal_rep (mulBase r2 (by rw [r3]; exact lt255 _)), r3, mod_smul_base]
  obtain ⟨c, c1, c2, c3⟩ := fromDigest (sha (ptEnc (leNat (sha (e.prefix_ ++ msg)) • basePt) ++ ptEnc p ++ msg))
  have hsum : leNat (scAdd r (scMul e.secret c)) % L = (leNat (sha (e.prefix_ ++ msg)) + leNat e.secret *
        leNat (sha (ptEnc (leNat (sha (e.prefix_ ++ msg)) • basePt) ++ ptEnc p ++ msg))) % L := by
    rw [(C49_add r _ r2 (C49_mul e.secret c he c2).1).2, (C49_mul e.secret c he c2).2, r3, c3, Nat.mod_mod]
    conv_lhs => rw [Nat.add_mod, Nat.mod_mod, Nat.mod_mod, Nat.mul_mod, Nat.mod_mod, ← Nat.mul_mod, ← Nat.add_mod]
  refine ⟨leBytes 32 (leNat (scAdd r (scMul e.secret c)) % L), length_leBytes _ _, ?_, ?_⟩
  · unfold eddsaSign
    rw [r1, Res.bind_ok]
    simp only
    rw [hR, marshal_rep hp, c1, Res.bind_ok, scMarshal_eq, Res.mapErr_ok, Res.bind_ok,
      if_neg (by rw [length_ptEnc]; simp), if_neg (by rw [length_leBytes]; simp)]
  · rw [leNat_leBytes_mod, hsum]

/-- C15 on edwards25519: whoever sees one signature made with a key converted from a generated key pair
computes, from the signature, the message and the public key alone, a private key that belongs to the
public key. The challenge must not be zero modulo the order. -/
theorem C15_edwards25519 {σ : Type} (sha : Bytes → Bytes) (hsha : ∀ b, (sha b).length = 64) (S : Stream σ)
    (st st' : σ) (p : Pair) (h : newKeyPair sha S st = (st', .ok p)) (msg sig : Bytes)
    (hs : eddsaSign sha (edKeyOfPair p) msg = .ok sig)
    (hc : ¬ L ∣ leNat (sha (sig.take 32 ++ ptMarshal p.pub ++ msg))) :
    let x : ZMod L := ((leNat (sig.drop 32) : ZMod L) - (leNat (sha msg) : ZMod L)) /
      (leNat (sha (sig.take 32 ++ ptMarshal p.pub ++ msg)) : ZMod L)
    x = (leNat p.priv : ZMod L) ∧ ptEq (ptMul (leBytes 32 x.val) none) p.pub = true := by
  intro x
  obtain ⟨h1, h2, h3, h4, h5, h6, -⟩ := C99_pair sha hsha S st st' p h
  obtain ⟨s, s1, s2, s3⟩ := eddsaSign_eq sha (edKeyOfPair p) _ h1 h5 msg
  rw [hs, Res.ok.injEq] at s2
  have e1 : sig.take 32 = ptEnc (leNat (sha msg) • basePt) := by rw [s2, take_enc]; rfl
  have e2 : sig.drop 32 = s := by rw [s2, drop_enc]
  have e3 : ptMarshal p.pub = ptEnc (leNat p.priv • basePt) := marshal_rep h5
  have s3' : leNat s = (leNat (sha msg) + leNat p.priv * leNat (sha (sig.take 32 ++ ptMarshal p.pub ++ msg))) % L := by
    rw [e1, e3]
    exact s3
  have hx : x = (leNat p.priv : ZMod L) := by
    simp only [x]
    rw [e2]
    generalize leNat (sha (sig.take 32 ++ ptMarshal p.pub ++ msg)) = c at hc s3' ⊢
    have hc0 : (c : ZMod L) ≠ 0 := fun e => hc ((ZMod.natCast_eq_zero_iff c L).1 e)
    rw [div_eq_iff hc0, s3', ZMod.natCast_mod]
    push_cast
    ring
  refine ⟨hx, ?_⟩
  rw [hx, ZMod.val_natCast]
  rw [ptEq_iff (mulBase (length_leBytes _ _) (by rw [leNat_leBytes_mod]; exact lt255 _)) h5, leNat_leBytes_mod,
    mod_smul_base]

/-- The hypotheses are met: with a hash whose value is 5, the key pair made from a stream of zeros. -/
example : ∃ (p : Pair) (sig : Bytes), newKeyPair (fun _ => leBytes 64 5) nullStream () = ((), .ok p) ∧
    eddsaSign (fun _ => leBytes 64 5) (edKeyOfPair p) [1] = .ok sig ∧
    ((leNat (sig.drop 32) : ZMod L) - 5) / 5 = (leNat p.priv : ZMod L) := by
  obtain ⟨p, hp⟩ : ∃ p, newKeyPair (fun _ => leBytes 64 5) nullStream () = ((), .ok p) :=
    ⟨_, newKeyPair_ok.2 ⟨_, rfl, rfl⟩⟩
  have hsha : ∀ b : Bytes, ((fun _ => leBytes 64 5 : Bytes → Bytes) b).length = 64 := fun _ => length_leBytes _ _
  have h5 : leNat (leBytes 64 5) = 5 := by decide +kernel
  obtain ⟨h1, -, -, -, h5', -⟩ := C99_pair _ hsha nullStream () () p hp
  obtain ⟨s, -, s2, -⟩ := eddsaSign_eq (fun _ => leBytes 64 5) (edKeyOfPair p) _ h1 h5' [1]
  refine ⟨p, _, hp, s2, ?_⟩
  have := (C15_edwards25519 _ hsha nullStream () () p hp [1] _ s2 (by rw [h5]; decide +kernel)).1
  rw [h5] at this
  exact this

/-- A seed of 32 bytes, its stored form with a wrong second half, and with the right one. -/
example : ∃ e, edKeyUnmarshal zeroSha edKeyDefault (List.replicate 32 7 ++ List.replicate 32 0) = (e, .ok ()) ∧
    edKeyUnmarshal zeroSha edKeyDefault (List.replicate 32 7 ++ Rfc8032.pubKey zeroSha (List.replicate 32 7)) =
      (e, .ok ()) ∧ edKeyUnmarshal zeroSha e [1, 2, 3] = (e, .err .marshalling) :=
  ⟨edKeyNew zeroSha (List.replicate 32 7), (C131_read _ _ _).1 (by decide),
    (C131_store _ _ _ (by decide) (by decide)).2.1, (C131_read _ _ _).2 (by decide)⟩

example : ∃ e, edKeyGen zeroSha nullStream () = ((), .ok e) ∧ e.seed = List.replicate 32 0 :=
  ⟨_, (C131_generate _ _ _ _ _).2 ⟨_, rfl, rfl⟩, rfl⟩

/-- `C131_generated_signs`, `C131_read_exact_partial` there. -/
example := C131_generated_signs zeroSha (fun _ => List.length_replicate ..) nullStream () () _
  ((C131_generate _ _ _ _ _).2 ⟨_, rfl, rfl⟩)

example := C131_read_exact_partial zeroSha (fun _ => List.length_replicate ..) edKeyDefault _
  (List.replicate 32 7 ++ List.replicate 32 0) ((C131_read _ _ _).1 (by decide))

/-- `C131_mismatch_accepted`: one of two second halves does not belong to the seed. -/
example : ∃ other ∈ [List.replicate 32 0, List.replicate 32 1], ∃ e,
    edKeyUnmarshal zeroSha edKeyDefault (List.replicate 32 7 ++ other) = (e, .ok ()) ∧ ptMarshal e.pub ≠ other := by
  have hsha : ∀ b, (zeroSha b).length = 64 := fun _ => List.length_replicate ..
  by_cases h : List.replicate 32 0 = Rfc8032.pubKey zeroSha (List.replicate 32 7)
  · obtain ⟨e, h1, -, h2⟩ := C131_mismatch_accepted zeroSha hsha edKeyDefault (List.replicate 32 7)
      (List.replicate 32 1) (by decide) (by decide) (by rw [← h]; decide)
    exact ⟨_, by simp, e, h1, h2⟩
  · obtain ⟨e, h1, -, h2⟩ := C131_mismatch_accepted zeroSha hsha edKeyDefault (List.replicate 32 7)
      (List.replicate 32 0) (by decide) (by decide) h
    exact ⟨_, by simp, e, h1, h2⟩

end Kyber.Ed
