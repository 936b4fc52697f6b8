/-
Properties C44, C45, C67: random numbers and streams.
-/
import Verif.Model.Random
import Verif.Lemmas.Int
import Mathlib.SetTheory.Cardinal.Finite
import Mathlib.Data.Set.Finite.Basic
import Mathlib.Logic.Equiv.Basic

namespace Kyber.Props

open Kyber Kyber.ModInt Kyber.Rand

/-! ## C45: the XOF as a stream -/

theorem xorBytes_self_inverse (a k : Bytes) (h : k.length = a.length) :
    xorBytes (xorBytes a k) k = a := by
  unfold xorBytes
  induction a generalizing k with
  | nil => simp
  | cons x a ih =>
    cases k with
    | nil => simp at h
    | cons y k =>
      simp only [List.zipWith_cons_cons, UInt8.xor_assoc, UInt8.xor_self, UInt8.xor_zero]
      rw [ih k (by simpa using h)]

theorem length_read (H : XofFn) (x : Xof) (n : Nat) : (x.read H n).2.length = n := by
  cases x <;> simp [Xof.read, outBytes]

theorem length_xorBytes (a b : Bytes) (h : b.length = a.length) :
    (xorBytes a b).length = a.length := by
  simp [xorBytes, h]

/-- C45: encrypting twice from the same state gives the message back. -/
theorem C45_involution (H : XofFn) (x : Xof) (dst dst' msg c : Bytes) (hd : dst.length = msg.length)
    (hd' : dst'.length = msg.length) (h : (x.xorKeyStream H dst msg).2 = .ok c) :
    (x.xorKeyStream H dst' c).2 = .ok msg := by
  unfold Xof.xorKeyStream at h ⊢
  rw [if_neg (by omega)] at h
  simp only [Res.ok.injEq] at h
  have hl := length_read H x msg.length
  rw [List.drop_eq_nil_of_le (by omega), List.append_nil] at h
  subst h
  rw [length_xorBytes _ _ hl, if_neg (by omega)]
  simp only [Res.ok.injEq]
  rw [List.drop_eq_nil_of_le (by omega), List.append_nil, xorBytes_self_inverse _ _ hl]

example (H : XofFn) : ((Xof.readable [1, 2] 5).xorKeyStream H [0, 0, 0]
    (xorBytes [7, 8, 9] (outBytes H [1, 2] 5 3))).2 = .ok [7, 8, 9] :=
  C45_involution H (Xof.readable [1, 2] 5) [0, 0, 0] [0, 0, 0] [7, 8, 9] _ rfl rfl (by
    simp [Xof.xorKeyStream, Xof.read])

theorem read_add (H : XofFn) (x : Xof) (m n : Nat) :
    (x.read H (m + n)).1 = ((x.read H m).1.read H n).1 ∧
    (x.read H (m + n)).2 = (x.read H m).2 ++ ((x.read H m).1.read H n).2 := by
  have hsplit : ∀ i p, outBytes H i p (m + n) = outBytes H i p m ++ outBytes H i (p + m) n := by
    intro i p
    unfold outBytes
    rw [List.range_add, List.map_append, List.map_map]
    congr 1
    apply List.map_congr_left
    intro k _
    simp [Nat.add_assoc]
  cases x with
  | writeable i => exact ⟨rfl, by have := hsplit i 0; rw [Nat.zero_add] at this; exact this⟩
  | readable i p => exact ⟨by simp [Xof.read, Nat.add_assoc], hsplit i p⟩

/-- Encrypting the pieces of a message one after the other. -/
def xorPieces (H : XofFn) : Xof → List Bytes → Xof × Bytes
  | x, [] => (x, [])
  | x, s :: ss =>
    match x.xorKeyStream H (List.replicate s.length 0) s with
    | (x', .ok c) => ((xorPieces H x' ss).1, c ++ (xorPieces H x' ss).2)
    | (x', _) => (x', [])

/-- C45: however a message is cut into consecutive calls, the ciphertext is the same as for one
call (the contract of `Stream`), and so is the state if there is at least one call. -/
theorem C45_splitting (H : XofFn) (x : Xof) (pieces : List Bytes) (hne : pieces ≠ []) :
    x.xorKeyStream H (List.replicate pieces.flatten.length 0) pieces.flatten =
      ((xorPieces H x pieces).1, .ok (xorPieces H x pieces).2) := by
  have one : ∀ (x : Xof) (s : Bytes), x.xorKeyStream H (List.replicate s.length 0) s =
      ((x.read H s.length).1, .ok (xorBytes s (x.read H s.length).2)) := by
    intro x s
    unfold Xof.xorKeyStream
    rw [if_neg (by simp)]
    simp
  induction pieces generalizing x with
  | nil => exact absurd rfl hne
  | cons s ss ih =>
    rw [one]
    cases ss with
    | nil => simp [xorPieces, one]
    | cons s' ss =>
      have ih := ih (x.read H s.length).1 (by simp)
      rw [one] at ih
      obtain ⟨h1, h2⟩ := Prod.mk.inj ih
      have h2 := Res.ok.inj h2
      rw [xorPieces, one]
      simp only
      rw [← h1, ← h2, List.flatten_cons (l := s), List.length_append, (read_add H x _ _).1,
        (read_add H x _ _).2]
      congr 2
      unfold xorBytes
      rw [List.zipWith_append (by rw [length_read])]

example (H : XofFn) (x : Xof) := C45_splitting H x [[1, 2], [], [3]] (by decide)

/-- C45: a longer destination keeps its tail, a shorter one is refused and nothing is consumed. -/
theorem C45_destination (H : XofFn) (x : Xof) (dst src : Bytes) :
    (src.length ≤ dst.length → ∃ c, (x.xorKeyStream H dst src).2 = .ok c ∧ c.length = dst.length ∧
      c.drop src.length = dst.drop src.length) ∧
    (dst.length < src.length → x.xorKeyStream H dst src = (x, .err .shortDestination)) := by
  unfold Xof.xorKeyStream
  constructor
  · intro h
    rw [if_neg (by omega)]
    have hl := length_xorBytes src (x.read H src.length).2 (length_read H x _)
    refine ⟨_, rfl, ?_, ?_⟩
    · rw [List.length_append, hl, List.length_drop]; omega
    · rw [List.drop_append_of_le_length (by omega), List.drop_eq_nil_of_le (by omega), List.nil_append]
  · intro h; rw [if_pos h]

/-- C45: what was written is hashed as one string, however it was cut into calls. -/
theorem C45_write_splitting (seed : Option Bytes) (pieces : List Bytes) :
    pieces.foldl (fun x p => (x.write p).1) (Xof.new seed) =
      ((Xof.new seed).write pieces.flatten).1 := by
  have : ∀ input : Bytes, pieces.foldl (fun x p => (Xof.write x p).1) (.writeable input) =
      ((Xof.writeable input).write pieces.flatten).1 := by
    induction pieces with
    | nil => intro input; simp [Xof.write]
    | cons p ps ih =>
      intro input
      rw [List.foldl_cons, show (Xof.write (.writeable input) p).1 = .writeable (input ++ p) from rfl,
        ih]
      simp [Xof.write]
  exact this _

/-- C45: a write after a read is refused and changes nothing. -/
theorem C45_write_after_read (H : XofFn) (x : Xof) (n : Nat) (buf : Bytes) :
    (x.read H n).1.write buf = ((x.read H n).1, .err .interrupted) := by
  cases x <;> rfl

/-- C45: but `write_all` after a read never returns: the error is of the kind that is retried. -/
theorem C45_write_all_after_read (H : XofFn) (x : Xof) (n : Nat) (buf : Bytes) (hb : buf ≠ [])
    (fuel : Nat) : ((x.read H n).1.writeAll buf fuel).2 = none := by
  induction fuel with
  | zero => rfl
  | succ fuel ih =>
    rw [Xof.writeAll, if_neg hb, C45_write_after_read]
    exact ih

example (H : XofFn) : (((Xof.new (some [1])).read H 3).1.writeAll [5] 10).2 = none :=
  C45_write_all_after_read H (Xof.new (some [1])) 3 [5] (by decide) 10

/-- C45: before any read `write_all` succeeds. -/
theorem C45_write_all (input buf : Bytes) (fuel : Nat) (hf : 2 ≤ fuel) :
    (Xof.writeable input).writeAll buf fuel = (.writeable (input ++ buf), some (.ok ())) := by
  obtain ⟨f, rfl⟩ : ∃ f, fuel = f + 2 := ⟨fuel - 2, by omega⟩
  rw [Xof.writeAll]
  split
  · rename_i h; simp [h]
  · simp only [Xof.write, List.drop_length]
    rw [Xof.writeAll, if_pos rfl]

example : (Xof.writeable [1]).writeAll [2, 3] 2 = (.writeable [1, 2, 3], some (.ok ())) := C45_write_all [1] [2, 3] 2 (by decide)

/-- C45: after `reseed` byte number `i` of the stream is byte number `i` of the output for an input
that consists of the next 128 bytes of the old stream: nothing else of the past matters, not even
what had been written. -/
theorem C45_reseed (H : XofFn) (input : Bytes) (pos n : Nat) :
    (((Xof.readable input pos).reseed H).read H n).2 =
      (List.range n).map (fun i => H ((List.range 128).map (fun j => H input (pos + j))) i) ∧
    (((Xof.writeable input).reseed H).read H n).2 =
      (List.range n).map (fun i => H ((List.range 128).map (fun j => H input j)) i) := by
  constructor <;> simp [Xof.reseed, Xof.read, Xof.new, outBytes]

/-- C45: `reseed` allows writing again: what is then written is appended to those 128 bytes. -/
theorem C45_reseed_writes (H : XofFn) (x : Xof) (buf : Bytes) (n : Nat) :
    ((x.reseed H).write buf).2 = .ok buf.length ∧
    ((((x.reseed H).write buf).1).read H n).2 =
      (List.range n).map (fun i => H ((x.read H 128).2 ++ buf) i) := by
  constructor
  · cases x <;> rfl
  · cases x <;> simp [Xof.reseed, Xof.read, Xof.new, outBytes, Xof.write]

example : let H : XofFn := fun i p => UInt8.ofNat (i.length + 3 * p)
    (Xof.xorKeyStream H (.readable [1] 2) [0, 0, 9] [5, 6]).2 = .ok [2, 12, 9] ∧
    (Xof.xorKeyStream H (.readable [1] 2) [0, 0] [2, 12]).2 = .ok [5, 6] ∧
    (xorPieces H (.readable [1] 2) [[5], [6]]).2 = [2, 12] := by decide +kernel

/-! ## C67: combining readers -/

variable {ρ σ : Type}

theorem readAll_spec (R : Reader ρ) (rs : List ρ) :
    (readAll R rs).2.1 = (rs.filterMap (fun r => (R.read32 r).2)).flatten ∧
    (readAll R rs).2.2 = (rs.filter (fun r => (R.read32 r).2 = none)).length := by
  induction rs with
  | nil => exact ⟨rfl, rfl⟩
  | cons r rs ih =>
    rw [readAll]
    simp only
    cases h : (R.read32 r).2 with
    | none => simp [h, ih.1, ih.2]
    | some b => simp [h, ih.1, ih.2]

/-- C67: a call of `RandStream` fails exactly on a length mismatch or when every reader fails. -/
theorem C67_fails_iff (R : Reader ρ) (sha256 : Bytes → Bytes) (H : XofFn) (rs : List ρ)
    (dst src : Bytes) :
    (∃ e, (randXor R sha256 H rs dst src).2 = .err e) ↔
      src.length ≠ dst.length ∨ ∀ r ∈ rs, (R.read32 r).2 = none := by
  unfold randXor
  split
  · rename_i h; simp [h]
  · rename_i h
    push Not at h
    simp only [(readAll_spec R rs).2]
    have hiff : (rs.filter (fun r => (R.read32 r).2 = none)).length = rs.length ↔
        ∀ r ∈ rs, (R.read32 r).2 = none := by
      rw [List.length_filter_eq_length_iff]; simp
    split
    · rename_i h2
      have := hiff.1 h2
      simp only [ne_eq, h, not_true_eq_false, false_or]
      exact ⟨fun _ => this, fun _ => ⟨_, rfl⟩⟩
    · rename_i h2
      simp only [ne_eq, h, not_true_eq_false, false_or]
      refine ⟨?_, fun h3 => absurd (hiff.2 h3) h2⟩
      rintro ⟨e, he⟩
      unfold Xof.xorKeyStream at he
      rw [if_neg (by omega)] at he
      cases he

/-- C67: otherwise the output is the source XORed with the XOF output for the hash of everything
that the working readers delivered, from the beginning. -/
theorem C67_output (R : Reader ρ) (sha256 : Bytes → Bytes) (H : XofFn) (rs : List ρ)
    (dst src : Bytes) (hl : src.length = dst.length) (hr : ∃ r ∈ rs, (R.read32 r).2 ≠ none) :
    (randXor R sha256 H rs dst src).2 = .ok (xorBytes src
      (outBytes H (sha256 (rs.filterMap (fun r => (R.read32 r).2)).flatten) 0 src.length)) := by
  unfold randXor
  rw [if_neg (by simpa using hl)]
  simp only [(readAll_spec R rs).2, (readAll_spec R rs).1]
  rw [if_neg]
  · unfold Xof.xorKeyStream
    rw [if_neg (by omega), List.drop_eq_nil_of_le (by omega)]
    simp only [List.append_nil]
    rfl
  · rw [List.length_filter_eq_length_iff]
    obtain ⟨r, h1, h2⟩ := hr
    intro h
    exact h2 (by simpa using h r h1)

/-- Two readers, the first of which fails. -/
example (sha256 : Bytes → Bytes) (H : XofFn) :=
  C67_output (⟨fun n => (n + 1, if n = 0 then none else some [UInt8.ofNat n])⟩ : Reader Nat) sha256 H [0, 4] [0, 0] [8, 9] rfl
    ⟨4, by decide, by decide⟩

/-- The contract of `Stream` for two calls: same bytes as for one call with the concatenation. -/
def C67_contract_statement : Prop :=
  ∀ (ρ : Type) (R : Reader ρ) (sha256 : Bytes → Bytes) (H : XofFn) (rs : List ρ) (a b c d e : Bytes),
    (randXor R sha256 H rs a a).2 = .ok c →
    (randXor R sha256 H (randXor R sha256 H rs a a).1 b b).2 = .ok d →
    (randXor R sha256 H rs (a ++ b) (a ++ b)).2 = .ok e →
    e = c ++ d

/-- C67: `RandStream` does not satisfy the contract of `Stream` about consecutive calls: each call
starts a new key stream. -/
theorem C67_contract_violated : ¬ C67_contract_statement := by
  intro h
  have := h Unit ⟨fun _ => ((), some [7])⟩ id (fun _ p => UInt8.ofNat p) [()] [0] [0] [0] [0] [0, 1]
    (by decide +kernel) (by decide +kernel) (by decide +kernel)
  revert this
  decide

/-- What holds: with readers that deliver the same bytes again, equal calls give equal key
streams, so that two ciphertexts differ exactly as the messages do. -/
theorem C67_key_stream_reuse_partial (R : Reader ρ) (sha256 : Bytes → Bytes) (H : XofFn)
    (rs rs' : List ρ) (hsame : rs.map (fun r => (R.read32 r).2) = rs'.map (fun r => (R.read32 r).2))
    (hr : ∃ r ∈ rs, (R.read32 r).2 ≠ none) (a b : Bytes) (hab : a.length = b.length) :
    ∃ k, (randXor R sha256 H rs a a).2 = .ok (xorBytes a k) ∧
      (randXor R sha256 H rs' b b).2 = .ok (xorBytes b k) := by
  have hfm : ∀ l : List ρ, l.filterMap (fun r => (R.read32 r).2) =
      (l.map (fun r => (R.read32 r).2)).filterMap id := by
    intro l; simp [List.filterMap_map]
  have hr' : ∃ r ∈ rs', (R.read32 r).2 ≠ none := by
    obtain ⟨r, h1, h2⟩ := hr
    have : (R.read32 r).2 ∈ rs'.map (fun r => (R.read32 r).2) := by
      rw [← hsame]; exact List.mem_map_of_mem h1
    obtain ⟨r', h3, h4⟩ := List.mem_map.1 this
    exact ⟨r', h3, by rw [h4]; exact h2⟩
  refine ⟨_, C67_output R sha256 H rs a a rfl hr, ?_⟩
  rw [C67_output R sha256 H rs' b b rfl hr', hfm rs, hfm rs', hsame, hab]

/-- Two readers, one of which fails. -/
example : let R : Reader Nat := ⟨fun n => (n + 1, if n = 0 then none else some [UInt8.ofNat n])⟩
    (randXor R id (fun i p => UInt8.ofNat (i.length + p)) [0, 5] [0, 0] [1, 1]).2 = .ok [0, 3] ∧
    (randXor R id (fun i p => UInt8.ofNat (i.length + p)) [0, 0] [0, 0] [1, 1]).2 =
      .err .readersFailure := by decide +kernel

/-! ## C44: random bits and integers -/

theorem beNat_cons (x : UInt8) (xs : Bytes) :
    beNat (x :: xs) = x.toNat * 256 ^ xs.length + beNat xs := by
  unfold beNat
  rw [List.reverse_cons, leNat_append, leNat, leNat, List.length_reverse]
  ring

theorem mask_toNat (h : Fin 8) (x : Fin 256) :
    ((UInt8.ofNat x.val) &&& ~~~((0xff : UInt8) <<< UInt8.ofNat h.val)).toNat = x.val % 2 ^ h.val := by
  revert h x
  decide +kernel

theorem setTop_toNat (h : Fin 8) (x : Fin 256) :
    ((UInt8.ofNat (x.val % 2 ^ (h.val + 1))) ||| ((1 : UInt8) <<< UInt8.ofNat h.val)).toNat =
      x.val % 2 ^ h.val + 2 ^ h.val := by
  revert h x
  decide +kernel

/-- The number that `bits` makes out of the drawn bytes. -/
theorem maskBits_value (n : Nat) (b : Bytes) (hl : b.length = (n + 7) / 8) :
    ∃ c, maskBits n false b = .ok c ∧ c.length = b.length ∧ beNat c = beNat b % 2 ^ n := by
  unfold maskBits
  by_cases h0 : n % 8 = 0
  · refine ⟨b, by simp only [h0]; rfl, rfl, ?_⟩
    have hlt := beNat_lt b
    rw [Nat.mod_eq_of_lt]
    rw [show (256 : Nat) = 2 ^ 8 by norm_num, ← pow_mul] at hlt
    rwa [show 8 * b.length = n by omega] at hlt
  · cases b with
    | nil => simp at hl; omega
    | cons x xs =>
      refine ⟨(x &&& ~~~((0xff : UInt8) <<< UInt8.ofNat (n % 8))) :: xs,
        by simp only [ne_eq, h0, not_false_eq_true, if_true]; rfl, rfl, ?_⟩
      have hx := mask_toNat ⟨n % 8, by omega⟩ ⟨x.toNat, x.toNat_lt⟩
      simp only [UInt8.ofNat_toNat] at hx
      rw [beNat_cons, beNat_cons, hx]
      have hl' : n = n % 8 + 8 * xs.length := by
        rw [List.length_cons] at hl; omega
      have hlt := beNat_lt xs
      have hp : (2 : Nat) ^ n = 256 ^ xs.length * 2 ^ (n % 8) := by
        conv_lhs => rw [hl']
        rw [show (256 : Nat) = 2 ^ 8 by norm_num, ← pow_mul, ← pow_add, Nat.add_comm]
      rw [hp, Nat.mod_mul, Nat.mul_comm (x.toNat), Nat.mul_add_mod,
        Nat.mod_eq_of_lt hlt, Nat.mul_add_div (by positivity), Nat.div_eq_of_lt hlt]
      rw [Nat.add_zero]
      ring

/-- C44: `bits(n, false)` is a number below `2^n`, namely the drawn one modulo `2^n`. -/
theorem C44_bits (S : Stream σ) (s : σ) (n : Nat)
    (hS : ∀ s z, ∀ b, (S.xor s z z).2 = .ok b → b.length = z.length) :
    ∃ c, (bits S s n false).2 = .ok c ∧ c.length = (n + 7) / 8 ∧ beNat c < 2 ^ n ∧
      beNat c = beNat (drawBytes S s ((n + 7) / 8)).2 % 2 ^ n := by
  have hlen : (drawBytes S s ((n + 7) / 8)).2.length = (n + 7) / 8 := by
    unfold drawBytes
    simp only
    split
    · rename_i s' b h
      have := hS s (List.replicate ((n + 7) / 8) 0) b (by rw [h])
      simpa using this
    · simp
  obtain ⟨c, h1, h2, h3⟩ := maskBits_value n _ hlen
  refine ⟨c, h1, h2.trans hlen, ?_, h3⟩
  rw [h3]
  exact Nat.mod_lt _ (by positivity)

example := C44_bits (⟨fun s _ src => (s + 1, .ok (xorBytes src (src.map (fun _ => UInt8.ofNat (31 + 3 * s)))))⟩ : Stream Nat) 4 13
  (by
    intro s z b h
    simp only [Res.ok.injEq] at h
    rw [← h]; simp [xorBytes])

/-- C44: with `exact` the number has exactly `n` bits, for `n > 0`. -/
theorem C44_bits_exact (n : Nat) (hn : 0 < n) (b : Bytes) (hl : b.length = (n + 7) / 8) :
    ∃ c, maskBits n true b = .ok c ∧ c.length = b.length ∧
      beNat c = beNat b % 2 ^ (n - 1) + 2 ^ (n - 1) := by
  obtain ⟨x, xs, rfl⟩ : ∃ x xs, b = x :: xs := by
    cases b with
    | nil => simp at hl; omega
    | cons x xs => exact ⟨x, xs, rfl⟩
  rw [List.length_cons] at hl
  have hlt := beNat_lt xs
  obtain ⟨h, hh, hn'⟩ : ∃ h, h < 8 ∧ n = h + 1 + 8 * xs.length := ⟨n - 1 - 8 * xs.length, by omega, by omega⟩
  have hx := setTop_toNat ⟨h, hh⟩ ⟨x.toNat, x.toNat_lt⟩
  simp only at hx
  have key : ∃ y : UInt8, maskBits n true (x :: xs) = .ok (y :: xs) ∧
      y.toNat = x.toNat % 2 ^ h + 2 ^ h := by
    unfold maskBits
    by_cases h7 : h = 7
    · subst h7
      rw [show n % 8 = 0 by omega]
      refine ⟨x ||| 0x80, rfl, ?_⟩
      rw [← hx]
      have : x.toNat % 2 ^ (7 + 1) = x.toNat := Nat.mod_eq_of_lt x.toNat_lt
      rw [this, UInt8.ofNat_toNat]
      rfl
    · have hm : n % 8 = h + 1 := by omega
      rw [hm]
      refine ⟨_, rfl, ?_⟩
      have hmask := mask_toNat ⟨h + 1, by omega⟩ ⟨x.toNat, x.toNat_lt⟩
      simp only [UInt8.ofNat_toNat] at hmask
      rw [Nat.add_sub_cancel, ← hx, ← hmask, UInt8.ofNat_toNat]
  obtain ⟨y, h1, h2⟩ := key
  refine ⟨y :: xs, h1, rfl, ?_⟩
  rw [beNat_cons, beNat_cons, h2]
  have hp : (2 : Nat) ^ (n - 1) = 256 ^ xs.length * 2 ^ h := by
    rw [hn', show h + 1 + 8 * xs.length - 1 = 8 * xs.length + h by omega, pow_add, pow_mul]
    norm_num
  rw [hp, Nat.mod_mul, Nat.mul_comm (x.toNat), Nat.mul_add_mod, Nat.mod_eq_of_lt hlt,
    Nat.mul_add_div (by positivity), Nat.div_eq_of_lt hlt, Nat.add_zero]
  ring

example := C44_bits_exact 13 (by decide) [255, 255] rfl

/-- C44: `bits(0, true)` panics. -/
theorem C44_bits_zero_exact : maskBits 0 true [] = .panic := rfl

/-- The value of one draw of `random_int`, if it is accepted. -/
def accepted (m : Nat) (b : Bytes) : Option Nat :=
  let x := beNat b % 2 ^ bitLen m
  if 0 < x ∧ x < m then some x else none

/-- The state after `k` draws. -/
def drawState (S : Stream σ) (m : Nat) (s : σ) (k : Nat) : σ :=
  (fun s => (drawBytes S s ((bitLen m + 7) / 8)).1)^[k] s

/-- The bytes of draw number `k`. -/
def draw (S : Stream σ) (m : Nat) (s : σ) (k : Nat) : Bytes :=
  (drawBytes S (drawState S m s k) ((bitLen m + 7) / 8)).2

/-- A stream whose successful calls keep the length, as both streams of the library do. -/
def KeepsLength (S : Stream σ) : Prop := ∀ s z b, (S.xor s z z).2 = .ok b → b.length = z.length

theorem randomInt_succ (S : Stream σ) (hS : KeepsLength S) (m : Nat) (s : σ) (fuel : Nat) :
    (randomInt S m s (fuel + 1)).2 =
      match accepted m (draw S m s 0) with
      | some v => some v
      | none => (randomInt S m (drawState S m s 1) fuel).2 := by
  obtain ⟨c, h1, -, -, h4⟩ := C44_bits S s (bitLen m) hS
  have hpair : bits S s (bitLen m) false = (drawState S m s 1, .ok c) := by
    rw [← h1]; rfl
  rw [randomInt, hpair]
  unfold accepted
  have hd : draw S m s 0 = (drawBytes S s ((bitLen m + 7) / 8)).2 := rfl
  simp only [hd, ← h4]
  split <;> rfl

/-- C44: `random_int` returns the value of the first accepted draw, and only then. -/
theorem C44_first_accepted (S : Stream σ) (hS : KeepsLength S) (m : Nat) (s : σ) (fuel v : Nat) :
    (randomInt S m s fuel).2 = some v ↔
      ∃ k < fuel, accepted m (draw S m s k) = some v ∧ ∀ j < k, accepted m (draw S m s j) = none := by
  induction fuel generalizing s with
  | zero => simp [randomInt]
  | succ fuel ih =>
    have hshift : ∀ k, draw S m (drawState S m s 1) k = draw S m s (k + 1) := by
      intro k
      unfold draw drawState
      rw [← Function.iterate_add_apply]
    rw [randomInt_succ S hS]
    cases h0 : accepted m (draw S m s 0) with
    | some w =>
      simp only [Option.some.injEq]
      constructor
      · rintro rfl
        exact ⟨0, by omega, h0, fun j hj => by omega⟩
      · rintro ⟨k, -, h1, h2⟩
        cases k with
        | zero => rw [h0] at h1; exact Option.some.inj h1
        | succ k => rw [h2 0 (by omega)] at h0; cases h0
    | none =>
      simp only
      rw [ih]
      constructor
      · rintro ⟨k, hk, h1, h2⟩
        refine ⟨k + 1, by omega, by rw [← hshift]; exact h1, fun j hj => ?_⟩
        cases j with
        | zero => exact h0
        | succ j => rw [← hshift]; exact h2 j (by omega)
      · rintro ⟨k, hk, h1, h2⟩
        cases k with
        | zero => rw [h0] at h1; cases h1
        | succ k =>
          exact ⟨k, by omega, by rw [hshift]; exact h1, fun j hj => by rw [hshift]; exact h2 (j + 1) (by omega)⟩

example (H : XofFn) (m fuel v : Nat) := C44_first_accepted (Xof.stream H)
  (fun s z b h => by
    obtain ⟨c, h1, h2, -⟩ := (C45_destination H s z z).1 le_rfl
    rw [show ((Xof.stream H).xor s z z).2 = (s.xorKeyStream H z z).2 from rfl, h1] at h
    cases h; exact h2) m (Xof.new (some [3])) fuel v

/-- C44: whatever the stream, what `random_int` returns is in `[1, m-1]`. -/
theorem C44_range (S : Stream σ) (hS : KeepsLength S) (m : Nat) (s : σ) (fuel v : Nat)
    (h : (randomInt S m s fuel).2 = some v) : 1 ≤ v ∧ v < m := by
  obtain ⟨k, -, h1, -⟩ := (C44_first_accepted S hS m s fuel v).1 h
  unfold accepted at h1
  simp only at h1
  split at h1
  · rename_i h2; cases h1; exact h2
  · cases h1

/-- C44: for a modulus below two the loop never ends. -/
theorem C44_no_result (S : Stream σ) (hS : KeepsLength S) (m : Nat) (hm : m < 2) (s : σ) (fuel : Nat) :
    (randomInt S m s fuel).2 = none := by
  by_contra h
  obtain ⟨v, hv⟩ := Option.ne_none_iff_exists'.1 h
  have := C44_range S hS m s fuel v hv
  omega

/-- C44: if the stream keeps failing, the errors are ignored and the loop never ends. -/
theorem C44_failing_stream (S : Stream σ) (hfail : ∀ s d, ∃ e, (S.xor s d d).2 = .err e) (m : Nat)
    (s : σ) (fuel : Nat) : (randomInt S m s fuel).2 = none := by
  have hS : KeepsLength S := by
    intro s z b h
    obtain ⟨e, he⟩ := hfail s z
    rw [he] at h; cases h
  by_contra h
  obtain ⟨v, hv⟩ := Option.ne_none_iff_exists'.1 h
  obtain ⟨k, -, h1, -⟩ := (C44_first_accepted S hS m s fuel v).1 hv
  have hz : draw S m s k = List.replicate ((bitLen m + 7) / 8) 0 := by
    unfold draw drawBytes
    simp only
    obtain ⟨e, he⟩ := hfail (drawState S m s k) (List.replicate ((bitLen m + 7) / 8) 0)
    split
    · rename_i s' b h2; rw [h2] at he; cases he
    · rfl
  have h0 : beNat (List.replicate ((bitLen m + 7) / 8) 0) = 0 := by
    unfold beNat; rw [List.reverse_replicate, leNat_replicate_zero]
  unfold accepted at h1
  simp [hz, h0] at h1

/-- C44: both streams of the library keep the length, so that everything said about `random_int`
holds for them. -/
theorem C44_library_streams {ρ : Type} (R : Reader ρ) (sha256 : Bytes → Bytes) (H : XofFn) :
    KeepsLength (Xof.stream H) ∧ KeepsLength (randStream R sha256 H) := by
  have hx : KeepsLength (Xof.stream H) := by
    intro x z b h
    obtain ⟨c, h1, h2, -⟩ := (C45_destination H x z z).1 le_rfl
    rw [show (Xof.stream H).xor x z z = x.xorKeyStream H z z from rfl, h1] at h
    cases h
    exact h2
  refine ⟨hx, ?_⟩
  intro rs z b h
  change (randXor R sha256 H rs z z).2 = .ok b at h
  by_cases hr : ∃ r ∈ rs, (R.read32 r).2 ≠ none
  · rw [C67_output R sha256 H rs z z rfl hr] at h
    cases h
    exact length_xorBytes _ _ (by simp [outBytes])
  · push Not at hr
    obtain ⟨e, he⟩ := (C67_fails_iff R sha256 H rs z z).2 (.inr hr)
    rw [he] at h; cases h

/-- The theorems on `random_int` applied to the XOF stream and to a stream that always fails. -/
example : 1 ≤ 9 ∧ 9 < 11 :=
  C44_range (Xof.stream (fun i p => UInt8.ofNat (i.length + 13 * (p + 1))))
    (C44_library_streams (⟨fun n => (n, none)⟩ : Reader Nat) id _).1 11 (Xof.new (some [1, 2])) 9 9 (by decide +kernel)

example (H : XofFn) (x : Xof) (fuel : Nat) : (randomInt (Xof.stream H) 1 x fuel).2 = none :=
  C44_no_result (Xof.stream H) (C44_library_streams (⟨fun n => (n, none)⟩ : Reader Nat) id H).1 1 (by decide) x fuel

example (H : XofFn) (fuel : Nat) :
    (randomInt (randStream (⟨fun n => (n, none)⟩ : Reader Nat) id H) 11 [0, 1] fuel).2 = none := by
  have hf : ∀ (rs : List Nat) (d : Bytes), ∃ e,
      ((randStream (⟨fun n => (n, none)⟩ : Reader Nat) id H).xor rs d d).2 = .err e := fun rs d =>
    (C67_fails_iff (⟨fun n => (n, none)⟩ : Reader Nat) id H rs d d).2 (.inr fun _ _ => rfl)
  exact C44_failing_stream _ hf 11 [0, 1] fuel

theorem xorBytes_zero (k : Bytes) : xorBytes (List.replicate k.length 0) k = k := by
  unfold xorBytes
  induction k with
  | nil => rfl
  | cons x k ih => simp [List.replicate_succ, ih]

theorem drawBytes_xof (H : XofFn) (x : Xof) (n : Nat) :
    drawBytes (Xof.stream H) x n = x.read H n := by
  unfold drawBytes
  simp only [Xof.stream, Xof.xorKeyStream, List.length_replicate, lt_irrefl, if_false]
  rw [List.drop_eq_nil_of_le (by simp), List.append_nil]
  have := xorBytes_zero (x.read H n).2
  rw [length_read] at this
  rw [this]

/-- C44: with an XOF as the stream, the draws are the consecutive blocks of its output: the number
chosen is a function of the seed (and of nothing else), namely the first block, cut to the bits of
the modulus, that lies in `[1, m-1]`. -/
theorem C44_from_seed (H : XofFn) (seed : Bytes) (m fuel v : Nat) :
    (randomInt (Xof.stream H) m (Xof.new (some seed)) fuel).2 = some v ↔
      ∃ k < fuel, accepted m (outBytes H seed (k * ((bitLen m + 7) / 8)) ((bitLen m + 7) / 8)) = some v ∧
        ∀ j < k, accepted m (outBytes H seed (j * ((bitLen m + 7) / 8)) ((bitLen m + 7) / 8)) = none := by
  have hst : ∀ k, drawState (Xof.stream H) m (Xof.new (some seed)) (k + 1) =
      .readable seed ((k + 1) * ((bitLen m + 7) / 8)) := by
    intro k
    induction k with
    | zero => simp [drawState, drawBytes_xof, Xof.read, Xof.new]
    | succ k ih =>
      unfold drawState at ih ⊢
      rw [Function.iterate_succ_apply', ih, drawBytes_xof, Xof.read]
      simp only [Xof.readable.injEq, true_and]
      ring
  have hdraw : ∀ k, draw (Xof.stream H) m (Xof.new (some seed)) k =
      outBytes H seed (k * ((bitLen m + 7) / 8)) ((bitLen m + 7) / 8) := by
    intro k
    unfold draw
    cases k with
    | zero => simp [drawState, drawBytes_xof, Xof.read, Xof.new]
    | succ k => rw [hst, drawBytes_xof, Xof.read]
  rw [C44_first_accepted _ (C44_library_streams (ρ := Unit) ⟨fun _ => ((), none)⟩ id H).1]
  simp only [hdraw]

/-- The possible draws: byte strings of the right length. -/
abbrev Draw (m : Nat) := { b : Bytes // b.length = (bitLen m + 7) / 8 }

/-- What `random_int` makes of a list of draws. -/
def firstAccepted (m : Nat) (ds : List (Draw m)) : Option Nat :=
  ds.findSome? (fun d => accepted m d.1)

/-- Exchange the residues `v` and `w` modulo `N`. -/
def swapRes (N v w x : Nat) : Nat :=
  if x % N = v then x - v + w else if x % N = w then x - w + v else x

theorem swapRes_spec {N v w : Nat} (hv : v < N) (hw : w < N) (x : Nat) :
    swapRes N v w x / N = x / N ∧
    swapRes N v w x % N = (if x % N = v then w else if x % N = w then v else x % N) := by
  have hx := Nat.div_add_mod x N
  have aux : ∀ c, c < N → (N * (x / N) + c) / N = x / N ∧ (N * (x / N) + c) % N = c := by
    intro c hc
    rw [Nat.mul_add_div (by omega), Nat.div_eq_of_lt hc, Nat.mul_add_mod, Nat.mod_eq_of_lt hc]
    exact ⟨rfl, rfl⟩
  unfold swapRes
  split_ifs with h1 h2
  · rw [show x - v + w = N * (x / N) + w by omega]; exact aux w hw
  · rw [show x - w + v = N * (x / N) + v by omega]; exact aux v hv
  · exact ⟨rfl, rfl⟩

theorem swapRes_invol {N v w : Nat} (hv : v < N) (hw : w < N) (x : Nat) :
    swapRes N v w (swapRes N v w x) = x := by
  have h1 := swapRes_spec hv hw x
  have h2 := swapRes_spec hv hw (swapRes N v w x)
  refine (Nat.div_add_mod (swapRes N v w (swapRes N v w x)) N).symm.trans
    (Eq.trans ?_ (Nat.div_add_mod x N))
  rw [h2.1, h1.1, h2.2, h1.2]
  congr 1
  split_ifs <;> simp_all

/-- The exchange of two residues on draws. -/
def swapDraw (m v w : Nat) (d : Draw m) : Draw m :=
  ⟨(leBytes ((bitLen m + 7) / 8) (swapRes (2 ^ bitLen m) v w (beNat d.1))).reverse, by simp⟩

theorem beNat_swapDraw (m v w : Nat) (hv : v < 2 ^ bitLen m) (hw : w < 2 ^ bitLen m) (d : Draw m) :
    beNat (swapDraw m v w d).1 = swapRes (2 ^ bitLen m) v w (beNat d.1) := by
  unfold swapDraw beNat
  simp only [List.reverse_reverse]
  rw [leNat_leBytes]
  apply Nat.mod_eq_of_lt
  have hlt := beNat_lt d.1
  rw [d.2] at hlt
  have hs := swapRes_spec hv hw (beNat d.1)
  have hdvd : (256 : Nat) ^ ((bitLen m + 7) / 8) =
      2 ^ bitLen m * 2 ^ (8 * ((bitLen m + 7) / 8) - bitLen m) := by
    rw [← pow_add, show bitLen m + (8 * ((bitLen m + 7) / 8) - bitLen m) = 8 * ((bitLen m + 7) / 8) by
      omega, pow_mul]; norm_num
  rw [hdvd] at hlt ⊢
  have hpos : 0 < 2 ^ bitLen m := by positivity
  rw [Nat.mul_comm, ← Nat.div_lt_iff_lt_mul hpos]
  rw [show leNat (List.reverse d.1) = beNat d.1 from rfl, hs.1]
  exact Nat.div_lt_of_lt_mul hlt

theorem swapDraw_invol (m v w : Nat) (hv : v < 2 ^ bitLen m) (hw : w < 2 ^ bitLen m) :
    Function.Involutive (swapDraw m v w) := by
  intro d
  apply Subtype.ext
  apply beNat_inj
  · rw [(swapDraw m v w (swapDraw m v w d)).2, d.2]
  · rw [beNat_swapDraw m v w hv hw, beNat_swapDraw m v w hv hw, swapRes_invol hv hw]

instance (m : Nat) : Finite (Draw m) :=
  Finite.of_injective (fun d : Draw m => (⟨beNat d.1, by have := beNat_lt d.1; rwa [d.2] at this⟩ :
    Fin (256 ^ ((bitLen m + 7) / 8)))) (by
      intro a b h
      apply Subtype.ext
      exact beNat_inj (a.2.trans b.2.symm) (Fin.mk.inj h))

/-- C44, unbiased: for each number of turns of the loop, all values in `[1, m-1]` are produced by
equally many sequences of draws. -/
theorem C44_uniform (m v w k : Nat) (hv : 1 ≤ v ∧ v < m) (hw : 1 ≤ w ∧ w < m) :
    Nat.card { ds : Fin k → Draw m // firstAccepted m (List.ofFn ds) = some v } =
      Nat.card { ds : Fin k → Draw m // firstAccepted m (List.ofFn ds) = some w } := by
  have hm := lt_two_pow_bitLen m
  have hv' : v < 2 ^ bitLen m := by omega
  have hw' : w < 2 ^ bitLen m := by omega
  let e : Equiv.Perm (Draw m) := (swapDraw_invol m v w hv' hw').toPerm
  have hacc : ∀ d : Draw m, accepted m (e d).1 =
      (accepted m d.1).map (fun x => if x = v then w else if x = w then v else x) := by
    intro d
    have h1 : beNat (e d).1 = swapRes (2 ^ bitLen m) v w (beNat d.1) := beNat_swapDraw m v w hv' hw' d
    unfold accepted
    simp only [h1, (swapRes_spec hv' hw' _).2]
    split_ifs <;> simp_all
  have hfa : ∀ l : List (Draw m), firstAccepted m (l.map e) =
      (firstAccepted m l).map (fun x => if x = v then w else if x = w then v else x) := by
    intro l
    unfold firstAccepted
    induction l with
    | nil => rfl
    | cons d l ih =>
      rw [List.map_cons, List.findSome?_cons, List.findSome?_cons, hacc]
      cases accepted m d.1 with
      | none => simpa using ih
      | some x => rfl
  have hflip : ∀ o : Option Nat,
      o.map (fun x => if x = v then w else if x = w then v else x) = some w ↔ o = some v := by
    intro o
    cases o with
    | none => simp
    | some x =>
      simp only [Option.map_some, Option.some.injEq]
      split_ifs <;> omega
  refine Nat.card_congr (Equiv.subtypeEquiv (Equiv.arrowCongr (Equiv.refl _) e) ?_)
  intro ds
  have : List.ofFn ((Equiv.arrowCongr (Equiv.refl (Fin k)) e) ds) = (List.ofFn ds).map e := by
    rw [List.map_ofFn]; rfl
  rw [this, hfa, hflip]

/-- Draws of one byte for the modulus 200. -/
example (k : Nat) := C44_uniform 200 3 199 k (by decide) (by decide)

/-- C44: the count is not trivially zero: every value is produced by some draw. -/
theorem C44_reachable (m v : Nat) (hv : 1 ≤ v ∧ v < m) :
    ∃ d : Draw m, accepted m d.1 = some v := by
  have hm := lt_two_pow_bitLen m
  refine ⟨⟨(leBytes ((bitLen m + 7) / 8) v).reverse, by simp⟩, ?_⟩
  have : beNat (leBytes ((bitLen m + 7) / 8) v).reverse = v := by
    unfold beNat
    rw [List.reverse_reverse, leNat_leBytes]
    apply Nat.mod_eq_of_lt
    refine lt_of_lt_of_le (lt_trans hv.2 hm) ?_
    rw [show (256 : Nat) = 2 ^ 8 by norm_num, ← pow_mul]
    exact Nat.pow_le_pow_right (by norm_num) (by omega)
  unfold accepted
  simp only [this, Nat.mod_eq_of_lt (lt_trans hv.2 hm)]
  rw [if_pos (by omega)]

/-- A stream whose first draw is rejected. -/
example : let S : Stream Nat := ⟨fun s _ src => (s + 1, .ok (xorBytes src [UInt8.ofNat (31 + 3 * s)]))⟩
    randomInt S 11 0 5 = (2, some 2) ∧ accepted 11 (draw S 11 0 0) = none := by decide +kernel

/-- An XOF whose first two blocks are rejected, and what reseeding does to its output. -/
example : let H : XofFn := fun i p => UInt8.ofNat (i.length + 13 * (p + 1))
    randomInt (Xof.stream H) 11 (Xof.new (some [1, 2])) 9 = (.readable [1, 2] 3, some 9) ∧
    (((Xof.readable [1, 2] 3).reseed H).read H 2).2 = [141, 154] := by decide +kernel

end Kyber.Props
