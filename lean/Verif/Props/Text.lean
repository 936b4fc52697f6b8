/-
C111 to C113: the text forms of modular integers, scalars and points.

`txt` turns a literal into the bytes of the text, `alphabet` has the digits of the bases up to thirty-six,
`unhex` reads hexadecimal digits of either case, two a byte, as `hex::decode` does.
-/
import Verif.Model.Text
import Verif.Props.Int
import Verif.Props.EdPoint
import Verif.Props.EdScalar
import Mathlib.Data.Nat.Digits.Defs

namespace Kyber.Props

open Kyber Kyber.ModInt Kyber.Ed Kyber.Text

/-- The bytes of a text of ASCII characters. -/
def txt (s : String) : Bytes := s.toList.map fun c => UInt8.ofNat c.toNat

/-- The digits, in lower and upper case. -/
def alphabet (upper : Bool) : Bytes :=
  txt (if upper then "0123456789ABCDEFGHIJKLMNOPQRSTUVWXYZ" else "0123456789abcdefghijklmnopqrstuvwxyz")

/-- A numeral: characters, each a digit below the base in either case, most significant first. -/
def Numeral (base : Nat) (cs : Bytes) (ds : List Nat) : Prop :=
  List.Forall₂ (fun c d => d < base ∧ ∃ upper, (alphabet upper)[d]? = some c) cs ds

/-- The value of a pair of hexadecimal digits. -/
def unhexDigit (c : UInt8) : Option Nat :=
  match (alphabet false).take 16 |>.idxOf? c with
  | some d => some d
  | none => (alphabet true).take 16 |>.idxOf? c

/-- Reading pairs of hexadecimal digits. -/
def unhex : Bytes → Option Bytes
  | [] => some []
  | [_] => none
  | a :: b :: cs => do
    let x ← unhexDigit a
    let y ← unhexDigit b
    let r ← unhex cs
    some (UInt8.ofNat (16 * x + y) :: r)

/-! ### Digits -/

theorem alphabet_digit : ∀ upper, ∀ d < 36, (alphabet upper)[d]? = some (hexDigit upper d) := by decide +kernel

theorem length_alphabet : ∀ upper, (alphabet upper).length = 36 := by decide +kernel

theorem digitVal_hexDigit : ∀ upper, ∀ d < 36, digitVal (hexDigit upper d) = some d := by decide +kernel

theorem hexDigit_ne : ∀ upper, ∀ d < 36, hexDigit upper d ≠ 95 ∧ hexDigit upper d ≠ 43 ∧ hexDigit upper d ≠ 45 := by
  decide +kernel

theorem unhexDigit_hexDigit : ∀ upper, ∀ d < 16, unhexDigit (hexDigit upper d) = some d := by decide +kernel

theorem digit_char {c : UInt8} {d : Nat} {upper : Bool} (h : (alphabet upper)[d]? = some c) :
    digitVal c = some d ∧ c ≠ 95 ∧ c ≠ 43 ∧ c ≠ 45 := by
  have hd : d < 36 := by
    rw [← length_alphabet upper]
    exact (List.getElem?_eq_some_iff.1 h).1
  rw [alphabet_digit upper d hd] at h
  injection h with h
  subst h
  exact ⟨digitVal_hexDigit upper d hd, hexDigit_ne upper d hd⟩

theorem readDigits_numeral {base : Nat} {cs : Bytes} {ds : List Nat} (h : Numeral base cs ds) :
    readDigits base cs = .ok ds := by
  unfold Numeral at h
  induction h with
  | nil => rfl
  | cons hd _ ih =>
    obtain ⟨hlt, u, hu⟩ := hd
    obtain ⟨h1, h2, _⟩ := digit_char hu
    simp only [readDigits, h2, if_false, h1, hlt, if_true, ih, Res.bind_ok]

theorem horner_ofDigits (base : Nat) (ds : List Nat) : horner base ds = Nat.ofDigits base ds.reverse := by
  unfold horner
  have key : ∀ acc, ds.foldl (fun acc d => acc * base + d) acc = acc * base ^ ds.length + Nat.ofDigits base ds.reverse := by
    induction ds with
    | nil => intro acc; simp
    | cons d ds ih =>
      intro acc
      rw [List.foldl_cons, ih, List.reverse_cons, Nat.ofDigits_append, List.length_reverse, List.length_cons,
        Nat.ofDigits_singleton]
      ring
  rw [key]
  simp

theorem stripPlus_cons {c : UInt8} (h : c ≠ 43) (cs : Bytes) : stripPlus (c :: cs) = c :: cs := by
  unfold stripPlus
  split
  · rename_i e; exact e.symm
  · rename_i e; exact absurd (List.cons.inj e).1 h
  · rfl

theorem parseNat_cons {base : Nat} (h2 : 2 ≤ base) (h36 : base ≤ 36) {c : UInt8} (h3 : c ≠ 95) (h4 : c ≠ 43) (cs : Bytes) :
    parseNat (c :: cs) base = (do
      let ds ← readDigits base (c :: cs)
      .ok (horner base ds)) := by
  have hb : ¬ (base < 2 ∨ 36 < base) := by omega
  unfold parseNat
  rw [if_neg hb, stripPlus_cons h4]
  simp only
  rw [if_neg h3]

theorem parseNat_numeral {base : Nat} (h2 : 2 ≤ base) (h36 : base ≤ 36) {cs : Bytes} {ds : List Nat} (hne : ds ≠ [])
    (h : Numeral base cs ds) : parseNat cs base = .ok (Nat.ofDigits base ds.reverse) := by
  have hr := readDigits_numeral h
  unfold Numeral at h
  cases h with
  | nil => exact absurd rfl hne
  | @cons c d cs ds hd _ =>
    obtain ⟨hlt, u, hu⟩ := hd
    obtain ⟨_, h3, h4, _⟩ := digit_char hu
    rw [parseNat_cons h2 h36 h3 h4, hr, Res.bind_ok, horner_ofDigits]

theorem parseInt_numeral {base : Nat} (h2 : 2 ≤ base) (h36 : base ≤ 36) {cs : Bytes} {ds : List Nat} (hne : ds ≠ [])
    (h : Numeral base cs ds) : parseInt cs base = .ok (Nat.ofDigits base ds.reverse : Nat) := by
  have hp := parseNat_numeral h2 h36 hne h
  unfold Numeral at h
  cases h with
  | nil => exact absurd rfl hne
  | @cons c d cs ds hd _ =>
    obtain ⟨_, u, hu⟩ := hd
    obtain ⟨_, _, _, h5⟩ := digit_char hu
    unfold parseInt
    split
    · rename_i e; exact absurd (List.cons.inj e).1 h5
    · rename_i e; exact absurd (List.cons.inj e).1 h5
    · rw [hp, Res.bind_ok]

theorem parseInt_minus {base : Nat} (h2 : 2 ≤ base) (h36 : base ≤ 36) {cs : Bytes} {ds : List Nat} (hne : ds ≠ [])
    (h : Numeral base cs ds) : parseInt (45 :: cs) base = .ok (-(Nat.ofDigits base ds.reverse : Nat)) := by
  have hp := parseNat_numeral h2 h36 hne h
  unfold Numeral at h
  cases h with
  | nil => exact absurd rfl hne
  | @cons c d cs ds hd _ =>
    obtain ⟨_, u, hu⟩ := hd
    obtain ⟨_, _, h4, _⟩ := digit_char hu
    unfold parseInt
    split
    · rename_i e
      exact absurd (List.cons.inj (List.cons.inj e).2).1 h4
    · rename_i e
      rw [← (List.cons.inj e).2, hp, Res.bind_ok]
    · rename_i e
      exact absurd rfl (e _)

theorem base_cast {base : Nat} (h36 : base ≤ 36) : ((base : Int) % 2 ^ 32).toNat = base := by omega

/-! ### Hexadecimal digits -/

theorem hexEncode_cons (upper : Bool) (x : UInt8) (b : Bytes) :
    hexEncode upper (x :: b) = hexDigit upper (x.toNat / 16) :: hexDigit upper (x.toNat % 16) :: hexEncode upper b := rfl

theorem byte_div (x : UInt8) : x.toNat / 16 < 16 := by
  have := x.toNat_lt
  omega

theorem unhex_hexEncode (upper : Bool) (b : Bytes) : unhex (hexEncode upper b) = some b := by
  induction b with
  | nil => rfl
  | cons x b ih =>
    rw [hexEncode_cons, unhex, unhexDigit_hexDigit upper _ (byte_div x), unhexDigit_hexDigit upper _ (Nat.mod_lt _ (by omega)),
      ih]
    simp only [Option.bind_eq_bind, Option.bind_some]
    rw [Nat.div_add_mod, UInt8.ofNat_toNat]

theorem hexEncode_inj {upper : Bool} {a b : Bytes} (h : hexEncode upper a = hexEncode upper b) : a = b := by
  have := congrArg unhex h
  rw [unhex_hexEncode, unhex_hexEncode] at this
  exact Option.some.inj this

theorem length_hexEncode (upper : Bool) (b : Bytes) : (hexEncode upper b).length = 2 * b.length := by
  induction b with
  | nil => rfl
  | cons x b ih => rw [hexEncode_cons, List.length_cons, List.length_cons, ih, List.length_cons]; ring

/-- The hexadecimal digits of bytes, as numbers. -/
def nibbles (b : Bytes) : List Nat := b.flatMap fun x => [x.toNat / 16, x.toNat % 16]

theorem numeral_hexEncode (upper : Bool) (b : Bytes) : Numeral 16 (hexEncode upper b) (nibbles b) := by
  unfold Numeral
  induction b with
  | nil => exact .nil
  | cons x b ih =>
    have h1 := byte_div x
    have h2 : x.toNat % 16 < 16 := Nat.mod_lt _ (by omega)
    exact .cons ⟨h1, upper, alphabet_digit _ _ (by omega)⟩ (.cons ⟨h2, upper, alphabet_digit _ _ (by omega)⟩ ih)

theorem horner_append (base : Nat) (a b : List Nat) :
    horner base (a ++ b) = horner base a * base ^ b.length + horner base b := by
  rw [horner_ofDigits, horner_ofDigits, horner_ofDigits, List.reverse_append, Nat.ofDigits_append, List.length_reverse]
  ring

theorem horner_nibbles (b : Bytes) : horner 16 (nibbles b.reverse) = leNat b := by
  induction b with
  | nil => rfl
  | cons x b ih =>
    have h1 : nibbles (x :: b).reverse = nibbles b.reverse ++ [x.toNat / 16, x.toNat % 16] := by
      unfold nibbles
      rw [List.reverse_cons, List.flatMap_append]
      rfl
    rw [h1, horner_append, ih]
    simp only [horner, List.foldl, leNat, List.length_cons, List.length_nil]
    omega

theorem parse_hexEncode (upper : Bool) {b : Bytes} (hb : b ≠ []) : parseInt (hexEncode upper b) 16 = .ok (beNat b : Nat) := by
  have hn : nibbles b ≠ [] := by
    cases b with
    | nil => exact absurd rfl hb
    | cons x b => exact List.cons_ne_nil _ _
  rw [parseInt_numeral (by omega) (by omega) hn (numeral_hexEncode upper b), ← horner_ofDigits]
  have := horner_nibbles b.reverse
  rw [List.reverse_reverse] at this
  rw [this]
  rfl

theorem toBytesBE_ne (n : Nat) : toBytesBE n ≠ [] := by
  unfold toBytesBE toBytesLE
  intro h
  have h1 := congrArg List.length h
  rw [List.length_reverse, length_leBytes, List.length_nil] at h1
  unfold bitLen at h1
  split at h1
  · omega
  · omega

/-! ## C111: the hexadecimal text of a modular integer -/

/-- The hexadecimal text reads back. -/
def C111_statement : Prop :=
  ∀ (i a : MInt) (upper : Bool), setString i (fmtInt upper false a) [] 16 = .ok { i with v := a.v }

/-- What reads back is the absolute value, in either case, whatever the receiver. -/
theorem C111_hex_partial (i a : MInt) (upper : Bool) :
    setString i (fmtInt upper false a) [] 16 = .ok { i with v := a.v.natAbs } := by
  unfold setString fmtInt hexPrefix
  have h16 : ((16 : Int) % 2 ^ 32).toNat = 16 := by decide +kernel
  rw [h16]
  simp only [Bool.false_eq_true, if_false, List.nil_append]
  rw [parse_hexEncode upper (toBytesBE_ne _), beNat_toBytesBE, Res.bind_ok]
  rfl

/-- So the text reads back exactly when the value is not negative. -/
theorem C111_exact (i a : MInt) (upper : Bool) :
    setString i (fmtInt upper false a) [] 16 = .ok { i with v := a.v } ↔ 0 ≤ a.v := by
  rw [C111_hex_partial]
  constructor
  · intro h
    have := congrArg MInt.v (Res.ok.inj h)
    simp only at this
    omega
  · intro h
    have : (a.v.natAbs : Int) = a.v := by omega
    rw [this]

/-- The sign is not printed: `-5 mod 7`, as `new_int` leaves it, prints as `05` and reads back as `5`. -/
theorem C111_violated : ¬ C111_statement := by
  intro h
  have := (C111_exact ⟨0, 7, .bigEndian⟩ ⟨-5, 7, .bigEndian⟩ false).1 (h _ _ _)
  revert this
  decide

/-- It holds of every value in the documented range. -/
theorem C111_reduced (i a : MInt) (ha : Reduced a) (upper : Bool) :
    setString i (fmtInt upper false a) [] 16 = .ok { i with v := a.v } :=
  (C111_exact i a upper).2 ha.2.1

example (i : MInt) (upper : Bool) := C111_reduced i ⟨300, 1009, .bigEndian⟩ (by decide) upper

/-- Texts agree exactly when the absolute values do: neither the sign nor the modulus nor the byte order shows. -/
theorem C111_same_text (a b : MInt) (upper alternate : Bool) :
    fmtInt upper alternate a = fmtInt upper alternate b ↔ a.v.natAbs = b.v.natAbs := by
  unfold fmtInt
  rw [List.append_cancel_left_eq]
  constructor
  · intro h
    have := congrArg beNat (hexEncode_inj h)
    rwa [beNat_toBytesBE, beNat_toBytesBE] at this
  · intro h
    rw [h]

/-- The text of `to_string` and of `{:#x}`, `{:#X}` has a prefix that `set_string` refuses: no such text reads back, in
base sixteen or ten. -/
theorem C111_prefix (i a : MInt) (upper : Bool) (d : Bytes) (base : Nat) (h2 : 2 ≤ base) (h33 : base ≤ 33) :
    setString i (fmtInt upper true a) d base = .err .invalidDigit ∧
      setString i (displayInt a) d base = .err .invalidDigit := by
  have key : ∀ (upper : Bool) (t : Bytes), setString i (hexPrefix upper true ++ t) d base = .err .invalidDigit := by
    intro upper t
    unfold setString
    rw [base_cast (by omega)]
    have : parseInt (hexPrefix upper true ++ t) base = .err .invalidDigit := by
      have hb : ¬ (base < 2 ∨ 36 < base) := by omega
      have h0 : digitVal 48 = some 0 := by decide
      have hb0 : 0 < base := by omega
      have hx : ∀ x, digitVal x = some 33 → x ≠ 95 → parseInt (48 :: x :: t) base = .err .invalidDigit := by
        intro x h1 h2'
        have : parseNat (48 :: x :: t) base = .err .invalidDigit := by
          rw [parseNat_cons h2 (by omega) (by decide) (by decide)]
          have h3 : readDigits base (48 :: x :: t) = .err .invalidDigit := by
            have h4 : readDigits base (x :: t) = .err .invalidDigit := by
              rw [readDigits, if_neg h2', h1]
              simp only
              rw [if_neg (by omega)]
            rw [readDigits, if_neg (by decide), h0]
            simp only
            rw [if_pos hb0, h4, Res.bind_err]
          rw [h3, Res.bind_err]
        unfold parseInt
        split
        · rename_i e; exact absurd (List.cons.inj e).1 (by decide)
        · rename_i e; exact absurd (List.cons.inj e).1 (by decide)
        · rw [this, Res.bind_err]
      cases upper
      · exact hx 120 (by decide) (by decide)
      · exact hx 88 (by decide) (by decide)
    rw [this, Res.bind_err]
  exact ⟨key upper _, key false _⟩

example : displayInt ⟨-255, 1000, .littleEndian⟩ = txt "0xff" ∧ fmtInt true false ⟨4011, 7, .bigEndian⟩ = txt "0FAB" ∧
    fmtInt true true ⟨0, 7, .bigEndian⟩ = txt "0X00" := by decide +kernel

example : ∃ a, newInt (-5) 7 = .ok a ∧ fmtInt false false a = txt "05" ∧
    setString a (fmtInt false false a) [] 16 = .ok ⟨5, 7, .bigEndian⟩ :=
  ⟨⟨-5, 7, .bigEndian⟩, by decide +kernel, by decide +kernel, by decide +kernel⟩

example : Reduced ⟨300, 1009, .bigEndian⟩ ∧ fmtInt false false ⟨300, 1009, .bigEndian⟩ = txt "012c" := by decide +kernel

/-! ## C112: values given as text -/

/-- Every numeral in a base between two and thirty-six, with or without a minus, stands for its value; nothing else of the
receiver changes. -/
theorem C112_numeral (i : MInt) (base : Nat) (h2 : 2 ≤ base) (h36 : base ≤ 36) (cs : Bytes) (ds : List Nat) (hne : ds ≠ [])
    (h : Numeral base cs ds) :
    setString i cs [] base = .ok { i with v := (Nat.ofDigits base ds.reverse : Nat) } ∧
      setString i (txt "-" ++ cs) [] base = .ok { i with v := -(Nat.ofDigits base ds.reverse : Nat) } := by
  unfold setString
  rw [base_cast h36]
  constructor
  · rw [parseInt_numeral h2 h36 hne h, Res.bind_ok]
    rfl
  · rw [show txt "-" ++ cs = 45 :: cs from rfl, parseInt_minus h2 h36 hne h, Res.bind_ok]
    rfl

theorem exNumeral : Numeral 36 (txt "zZ7") [35, 35, 7] := by
  refine .cons ⟨by omega, false, ?_⟩ (.cons ⟨by omega, true, ?_⟩ (.cons ⟨by omega, false, ?_⟩ .nil)) <;> decide +kernel

example (i : MInt) : setString i (txt "zZ7") [] 36 = .ok { i with v := 46627 } :=
  (C112_numeral i 36 (by decide) (by decide) (txt "zZ7") [35, 35, 7] (by decide) exNumeral).1

/-- In particular the usual digits of a number in the base. -/
theorem C112_digits (i : MInt) (base : Nat) (h2 : 2 ≤ base) (h36 : base ≤ 36) (n : Nat) (hn : n ≠ 0) (cs : Bytes)
    (h : Numeral base cs (Nat.digits base n).reverse) : setString i cs [] base = .ok { i with v := n } := by
  have hne : (Nat.digits base n).reverse ≠ [] := by
    intro e
    rw [List.reverse_eq_nil_iff, Nat.digits_eq_nil_iff_eq_zero] at e
    exact hn e
  rw [(C112_numeral i base h2 h36 cs _ hne h).1, List.reverse_reverse, Nat.ofDigits_digits]

example (i : MInt) : setString i (txt "zZ7") [] 36 = .ok { i with v := 46627 } :=
  C112_digits i 36 (by decide) (by decide) 46627 (by decide) (txt "zZ7") (by
    rw [show (Nat.digits 36 46627).reverse = [35, 35, 7] by norm_num]; exact exNumeral)

/-- A base outside of two to thirty-six panics. -/
theorem C112_base (i : MInt) (n d : Bytes) (base : Int) (h1 : -2 ^ 31 ≤ base) (h2 : base < 2 ^ 31)
    (h : base < 2 ∨ 36 < base) : setString i n d base = .panic := by
  have hb : (base % 2 ^ 32).toNat < 2 ∨ 36 < (base % 2 ^ 32).toNat := by omega
  have hp : ∀ s, parseNat s (base % 2 ^ 32).toNat = .panic := by
    intro s
    unfold parseNat
    rw [if_pos hb]
  unfold setString parseInt
  split <;> rw [hp, Res.bind_panic, Res.bind_panic]

example (i : MInt) : setString i (txt "10") [] 64 = .panic := C112_base i _ _ 64 (by decide) (by decide) (by decide)

/-- The value is brought into the documented range. -/
def C112_reduced_statement : Prop :=
  ∀ (base : Nat) (cs : Bytes) (ds : List Nat) (m : Int), 2 ≤ base → base ≤ 36 → ds ≠ [] → Numeral base cs ds → 2 ≤ m →
    ∃ a, newIntString cs [] base m = .ok a ∧ Reduced a

/-- It is not: the value of the numeral is kept as it is. -/
theorem C112_kept_partial (base : Nat) (cs : Bytes) (ds : List Nat) (m : Int) (h2 : 2 ≤ base) (h36 : base ≤ 36) (hne : ds ≠ [])
    (h : Numeral base cs ds) (hm : 2 ≤ m) :
    ∃ a, newIntString cs [] base m = .ok a ∧ a.m = m ∧ a.bo = .bigEndian ∧ a.v = (Nat.ofDigits base ds.reverse : Nat) ∧
      (Reduced a ↔ ((Nat.ofDigits base ds.reverse : Nat) : Int) < m) := by
  refine ⟨⟨(Nat.ofDigits base ds.reverse : Nat), m, .bigEndian⟩, ?_, rfl, rfl, rfl, ?_⟩
  · unfold newIntString
    rw [(C112_numeral ⟨0, m, .bigEndian⟩ base h2 h36 cs ds hne h).1]
  · unfold Reduced
    simp only
    constructor
    · exact fun h => h.2.2
    · exact fun h => ⟨hm, by omega, h⟩

example := C112_kept_partial 36 (txt "zZ7") [35, 35, 7] 1009 (by decide) (by decide) (by decide) exNumeral (by decide)

theorem numeral_ten : Numeral 10 (txt "10") [1, 0] := by
  refine .cons ⟨by omega, false, ?_⟩ (.cons ⟨by omega, false, ?_⟩ .nil) <;> decide +kernel

/-- `10` modulo `7` stays `10`, and differs from the `3` that `new_int` makes of it. -/
theorem C112_violated_reduced : ¬ C112_reduced_statement ∧
    ∃ a b, newIntString (txt "10") [] 10 7 = .ok a ∧ newInt 10 7 = .ok b ∧ a.equal b = false := by
  constructor
  · intro h
    obtain ⟨a, h1, h3⟩ := h 10 (txt "10") [1, 0] 7 (by omega) (by omega) (by simp) numeral_ten (by omega)
    obtain ⟨b, h4, _, _, _, h5⟩ := C112_kept_partial 10 (txt "10") [1, 0] 7 (by omega) (by omega) (by simp) numeral_ten (by omega)
    rw [h1] at h4
    injection h4 with h4
    subst h4
    have := h5.1 h3
    revert this
    decide
  · exact ⟨⟨10, 7, .bigEndian⟩, ⟨3, 7, .bigEndian⟩, by decide +kernel, by decide +kernel, by decide +kernel⟩

/-- A fraction `n / d` is the number that gives `n` when multiplied with `d`. -/
def C112_fraction_statement : Prop :=
  ∀ (base : Nat) (cs cs' : Bytes) (ds ds' : List Nat) (m : Int), 2 ≤ base → base ≤ 36 → ds ≠ [] → ds' ≠ [] →
    Numeral base cs ds → Numeral base cs' ds' → 2 ≤ m → IsCoprime ((Nat.ofDigits base ds'.reverse : Nat) : Int) m →
    ∃ a, newIntString cs cs' base m = .ok a ∧
      a.v * (Nat.ofDigits base ds'.reverse : Nat) ≡ (Nat.ofDigits base ds.reverse : Nat) [ZMOD m]

/-- The text of a fraction is read as the product of the two numerals, reduced. -/
theorem C112_fraction_partial (base : Nat) (cs cs' : Bytes) (ds ds' : List Nat) (m : Int) (h2 : 2 ≤ base) (h36 : base ≤ 36)
    (hne : ds ≠ []) (hne' : ds' ≠ []) (h : Numeral base cs ds) (h' : Numeral base cs' ds') (hm : 2 ≤ m) :
    ∃ a, newIntString cs cs' base m = .ok a ∧ Reduced a ∧
      a.v = ((Nat.ofDigits base ds.reverse : Nat) * (Nat.ofDigits base ds'.reverse : Nat)) % m := by
  have hcs : cs' ≠ [] := by
    intro e
    subst e
    unfold Numeral at h'
    cases h'
    exact hne' rfl
  refine ⟨⟨((Nat.ofDigits base ds.reverse : Nat) * (Nat.ofDigits base ds'.reverse : Nat)) % m, m, .bigEndian⟩, ?_, ?_, rfl⟩
  · unfold newIntString setString
    rw [base_cast h36, parseInt_numeral h2 h36 hne h, Res.bind_ok]
    simp only [if_neg hcs]
    rw [parseInt_numeral h2 h36 hne' h', Res.bind_ok]
    unfold MInt.div rem
    simp only
    rw [if_neg (by omega), Res.bind_ok, Res.mapErr_ok]
    simp only
    rw [Int.tmod_eq_emod_of_nonneg (by positivity)]
  · refine ⟨hm, Int.emod_nonneg _ (by omega), Int.emod_lt_of_pos _ (by omega)⟩

example := C112_fraction_partial 36 (txt "zZ7") (txt "zZ7") [35, 35, 7] [35, 35, 7] 1009 (by decide) (by decide) (by decide)
  (by decide) exNumeral exNumeral (by decide)

/-- `1/3` modulo `7` is read as `3`, and three times three is not one. -/
theorem C112_violated_fraction : ¬ C112_fraction_statement := by
  intro h
  have n1 : Numeral 10 (txt "1") [1] := by
    refine .cons ⟨by omega, false, ?_⟩ .nil
    decide +kernel
  have n3 : Numeral 10 (txt "3") [3] := by
    refine .cons ⟨by omega, false, ?_⟩ .nil
    decide +kernel
  obtain ⟨a, h1, h2⟩ := h 10 (txt "1") (txt "3") [1] [3] 7 (by omega) (by omega) (by simp) (by simp) n1 n3 (by omega)
    (by rw [Int.isCoprime_iff_gcd_eq_one]; decide)
  obtain ⟨b, h3, _, h4⟩ := C112_fraction_partial 10 (txt "1") (txt "3") [1] [3] 7 (by omega) (by omega) (by simp) (by simp) n1
    n3 (by omega)
  rw [h1] at h3
  injection h3 with h3
  subst h3
  rw [h4] at h2
  revert h2
  decide

example : Numeral 36 (txt "zZ7") [35, 35, 7] ∧ Nat.ofDigits 36 [35, 35, 7].reverse = 46627 := by
  refine ⟨.cons ⟨by omega, false, ?_⟩ (.cons ⟨by omega, true, ?_⟩ (.cons ⟨by omega, false, ?_⟩ .nil)), ?_⟩ <;> decide +kernel

example : setString ⟨0, 7, .bigEndian⟩ (txt "-10") [] 10 = .ok ⟨-10, 7, .bigEndian⟩ ∧
    newIntString (txt "1_0") (txt "+3") 10 7 = .ok ⟨2, 7, .bigEndian⟩ ∧ newIntString (txt "1a") [] 10 7 = .panic := by
  decide +kernel

/-- A character that can stand in no numeral of the base: no digit, no underscore, no sign. -/
def Foreign (base : Nat) (c : UInt8) : Prop :=
  (∀ d upper, d < base → (alphabet upper)[d]? ≠ some c) ∧ c ≠ 95 ∧ c ≠ 43 ∧ c ≠ 45

theorem digitVal_alphabet : ∀ c : UInt8, ∀ d, digitVal c = some d → ∃ upper, (alphabet upper)[d]? = some c := by
  have h : ∀ n < 256, ((digitVal (UInt8.ofNat n)).all (fun d => (alphabet false)[d]? == some (UInt8.ofNat n) ||
      (alphabet true)[d]? == some (UInt8.ofNat n))) = true := by decide +kernel
  intro c d hd
  have := h c.toNat c.toNat_lt
  rw [UInt8.ofNat_toNat, hd, Option.all_some, Bool.or_eq_true, beq_iff_eq, beq_iff_eq] at this
  rcases this with h | h
  · exact ⟨_, h⟩
  · exact ⟨_, h⟩

theorem readDigits_foreign {base : Nat} {cs : Bytes} (h : ∃ c ∈ cs, Foreign base c) :
    readDigits base cs = .err .invalidDigit := by
  induction cs with
  | nil => obtain ⟨c, hc, -⟩ := h; cases hc
  | cons a cs ih =>
    unfold readDigits
    by_cases ha : Foreign base a
    · rw [if_neg ha.2.1]
      split
      · next d hd =>
        obtain ⟨u, hu⟩ := digitVal_alphabet a d hd
        rw [if_neg (fun hlt => ha.1 d u hlt hu)]
      · rfl
    · have ih := ih (by
        obtain ⟨c, hc, hf⟩ := h
        rcases List.mem_cons.1 hc with rfl | hc
        · exact absurd hf ha
        · exact ⟨c, hc, hf⟩)
      rw [ih]
      split
      · rfl
      · split
        · split <;> rfl
        · rfl

theorem parseNat_foreign {base : Nat} (h2 : 2 ≤ base) (h36 : base ≤ 36) {cs : Bytes} (h : ∃ c ∈ cs, Foreign base c) :
    parseNat cs base = .err .invalidDigit := by
  have hs : ∃ c ∈ stripPlus cs, Foreign base c := by
    obtain ⟨c, hc, hf⟩ := h
    refine ⟨c, ?_, hf⟩
    unfold stripPlus
    split
    · exact hc
    · rcases List.mem_cons.1 hc with rfl | hc
      · exact absurd rfl hf.2.2.1
      · exact hc
    · exact hc
  unfold parseNat
  rw [if_neg (by omega)]
  split
  · next e => rw [e] at hs; obtain ⟨c, hc, -⟩ := hs; cases hc
  · next a t e =>
    rw [e] at hs
    split
    · rfl
    · rw [readDigits_foreign hs]; rfl

theorem parseInt_foreign {base : Nat} (h2 : 2 ≤ base) (h36 : base ≤ 36) {cs : Bytes} (h : ∃ c ∈ cs, Foreign base c) :
    parseInt cs base = .err .invalidDigit := by
  unfold parseInt
  split
  · rw [parseNat_foreign h2 h36 h]; rfl
  · next t _ =>
    rw [parseNat_foreign h2 h36 (by
      obtain ⟨c, hc, hf⟩ := h
      rcases List.mem_cons.1 hc with rfl | hc
      · exact absurd rfl hf.2.2.2
      · exact ⟨c, hc, hf⟩)]
    rfl
  · rw [parseNat_foreign h2 h36 h]; rfl

theorem readDigits_no_panic (base : Nat) (cs : Bytes) : readDigits base cs ≠ .panic := by
  induction cs with
  | nil => intro h; cases h
  | cons a cs ih =>
    unfold readDigits
    split
    · exact ih
    · split
      · split
        · cases hr : readDigits base cs with
          | ok v => intro h; cases h
          | err e => intro h; cases h
          | panic => exact absurd hr ih
        · intro h; cases h
      · intro h; cases h

theorem parseNat_no_panic {base : Nat} (h2 : 2 ≤ base) (h36 : base ≤ 36) (cs : Bytes) : parseNat cs base ≠ .panic := by
  unfold parseNat
  rw [if_neg (by omega)]
  split
  · intro h; cases h
  · next a t _ =>
    split
    · intro h; cases h
    · cases hr : readDigits base (a :: t) with
      | ok v => intro h; cases h
      | err e => intro h; cases h
      | panic => exact absurd hr (readDigits_no_panic base _)

theorem parseInt_no_panic {base : Nat} (h2 : 2 ≤ base) (h36 : base ≤ 36) (cs : Bytes) : parseInt cs base ≠ .panic := by
  have h : ∀ (t : Bytes) (f : Nat → Int), (do
      let n ← parseNat t base
      .ok (f n) : Res StrError Int) ≠ .panic := by
    intro t f
    cases hr : parseNat t base with
    | ok v => intro h; cases h
    | err e => intro h; cases h
    | panic => exact absurd hr (parseNat_no_panic h2 h36 _)
  unfold parseInt
  split
  · exact h _ (fun n => -(n : Int))
  · exact h _ (fun n => -(n : Int))
  · exact h _ (fun n => (n : Int))

/-- C112: a text with a character that stands in no numeral of the base is refused, as numerator and as denominator, and
so is the empty text; `new_int_string` then panics. -/
theorem C112_refused (i : MInt) (base : Nat) (h2 : 2 ≤ base) (h36 : base ≤ 36) (n d : Bytes) (m : Int)
    (h : n = [] ∨ ∃ c ∈ n ++ d, Foreign base c) :
    (∃ e, setString i n d base = .err e) ∧ newIntString n d base m = .panic := by
  have hall : ∀ i : MInt, ∃ e, setString i n d base = .err e := by
    intro i
    unfold setString
    rw [base_cast h36]
    by_cases hn : ∃ c ∈ n, Foreign base c
    · rw [parseInt_foreign h2 h36 hn]; exact ⟨_, rfl⟩
    · rcases h with rfl | ⟨c, hc, hf⟩
      · refine ⟨.empty, ?_⟩
        have : parseInt [] base = .err .empty := by
          unfold parseInt parseNat stripPlus
          simp only
          rw [if_neg (by omega)]
          rfl
        rw [this]; rfl
      · rcases List.mem_append.1 hc with hc | hc
        · exact absurd ⟨c, hc, hf⟩ hn
        · have hd : d ≠ [] := fun e => by rw [e] at hc; cases hc
          rw [parseInt_foreign h2 h36 ⟨c, hc, hf⟩]
          cases hp : parseInt n base with
          | ok v => exact ⟨.invalidDigit, by rw [Res.bind_ok]; simp only [if_neg hd]; rfl⟩
          | err e => exact ⟨e, rfl⟩
          | panic =>
            exact absurd hp (parseInt_no_panic h2 h36 n)
  refine ⟨hall i, ?_⟩
  unfold newIntString
  obtain ⟨e, he⟩ := hall ⟨0, m, .bigEndian⟩
  rw [he]

/-- `C112_refused`: `7/1g` in base 16. -/
example (i : MInt) : (∃ e, setString i (txt "7") (txt "1g") 16 = .err e) ∧
    newIntString (txt "7") (txt "1g") 16 11 = .panic := by
  refine C112_refused i 16 (by omega) (by omega) _ _ 11 (.inr ⟨103, by decide, fun d upper hd => ?_, by decide, by decide,
    by decide⟩)
  have h : ∀ d < 16, (alphabet false)[d]? ≠ some 103 ∧ (alphabet true)[d]? ≠ some 103 := by decide +kernel
  cases upper
  · exact (h d hd).1
  · exact (h d hd).2

/-! ## C113: the text of points and scalars -/

/-- The texts of two points agree exactly when the points are equal. -/
theorem C113_point (s u : Ext) (hs : s.Valid) (hu : u.Valid) (upper alternate : Bool) :
    (fmtPoint upper alternate s = fmtPoint upper alternate u ↔ ptEq s u = true) ∧
      (displayPoint s = displayPoint u ↔ ptEq s u = true) := by
  have key : ∀ upper, hexEncode upper s.bytes = hexEncode upper u.bytes ↔ ptEq s u = true := by
    intro upper
    rw [(C57_eq s u hs hu).1, ← (C57_eq s u hs hu).2]
    exact ⟨hexEncode_inj, fun h => congrArg (hexEncode upper) h⟩
  unfold displayPoint fmtPoint
  simp only [List.append_cancel_left_eq, List.append_cancel_right_eq]
  exact ⟨key upper, key false⟩

/-- The text of a point is read back by decoding its hexadecimal digits, into an equal point, whatever the receiver held. -/
theorem C113_point_reads_back (s : Ext) (hs : s.Valid) (self : Ext) (upper : Bool) :
    (fmtPoint upper false s).length = 64 ∧
      fmtPoint upper true s = txt (if upper then "0X" else "0x") ++ fmtPoint upper false s ∧
      displayPoint s = txt "Ed25519Point(0x" ++ fmtPoint false false s ++ txt ")" ∧
      ∃ b u, unhex (fmtPoint upper false s) = some b ∧ ptUnmarshal self b = (u, true) ∧ u.Valid ∧ ptEq u s = true := by
  have hl : s.bytes.length = 32 := (C57_marshal s hs).1
  refine ⟨?_, ?_, ?_, ?_⟩
  · unfold fmtPoint hexPrefix
    simp only [Bool.false_eq_true, if_false, List.nil_append]
    rw [length_hexEncode, hl]
  · cases upper <;> rfl
  · rfl
  · obtain ⟨u, h1, h2, _, _, h3⟩ := C57_round_trip s hs self
    exact ⟨s.bytes, u, unhex_hexEncode upper _, h1, h2, h3⟩

example (self : Ext) := C113_point_reads_back baseExt base_valid self true

/-- The text of a scalar is the hexadecimal form of its encoding. -/
def C113_scalar_statement : Prop :=
  ∀ (v : Bytes) (upper : Bool), v.length = 32 → ∃ b, scMarshal v = .ok b ∧ unhex (fmtScalar upper false v) = some b

/-- The text of a scalar has the bytes held, sixty-four digits, and decoding them gives back the very same scalar: texts
agree exactly when `==` does. -/
theorem C113_scalar (v w self : Bytes) (hv : v.length = 32) (upper alternate : Bool) :
    (fmtScalar upper false v).length = 64 ∧
      fmtScalar upper true v = txt (if upper then "0X" else "0x") ++ fmtScalar upper false v ∧
      displayScalar v = txt "Ed25519Scalar(0x" ++ fmtScalar false false v ++ txt ")" ∧
      (∃ b, unhex (fmtScalar upper false v) = some b ∧ scUnmarshal self b = (v, .ok ())) ∧
      (fmtScalar upper alternate v = fmtScalar upper alternate w ↔ v = w) ∧ (displayScalar v = displayScalar w ↔ v = w) := by
  have key : ∀ upper, hexEncode upper v = hexEncode upper w ↔ v = w :=
    fun upper => ⟨hexEncode_inj, fun h => congrArg (hexEncode upper) h⟩
  refine ⟨?_, ?_, rfl, ⟨v, unhex_hexEncode upper _, ?_⟩, ?_, ?_⟩
  · unfold fmtScalar hexPrefix
    simp only [Bool.false_eq_true, if_false, List.nil_append]
    rw [length_hexEncode, hv]
  · cases upper <;> rfl
  · unfold scUnmarshal
    rw [if_neg (by simp [hv])]
  · unfold fmtScalar
    rw [List.append_cancel_left_eq]
    exact key upper
  · unfold displayScalar fmtScalar
    simp only [List.append_cancel_left_eq, List.append_cancel_right_eq]
    exact key false

example (w self : Bytes) := C113_scalar (List.replicate 32 255) w self rfl false true

/-- It is the hexadecimal form of the encoding exactly for reduced scalars. -/
theorem C113_scalar_exact (v : Bytes) (hv : v.length = 32) (upper : Bool) :
    (∃ b, scMarshal v = .ok b ∧ unhex (fmtScalar upper false v) = some b) ↔ leNat v < L := by
  obtain ⟨m, h1, h2, h3⟩ := C68_marshal v
  have hu : unhex (fmtScalar upper false v) = some v := unhex_hexEncode upper v
  rw [hu, h1]
  have hL : 0 < L := prime_L.pos
  constructor
  · rintro ⟨b, h4, h5⟩
    injection h4 with h4
    injection h5 with h5
    subst h4
    subst h5
    rw [h3]
    exact Nat.mod_lt _ hL
  · intro h
    refine ⟨m, rfl, ?_⟩
    rw [Nat.mod_eq_of_lt h] at h3
    rw [leNat_inj (h2.trans hv.symm) h3]

/-- An unreduced scalar: the text is not the encoding. -/
example : ¬ ∃ b, scMarshal (List.replicate 32 255) = .ok b ∧ unhex (fmtScalar false false (List.replicate 32 255)) = some b :=
  fun h => absurd ((C113_scalar_exact (List.replicate 32 255) rfl false).1 h)
    (by rw [show leNat (List.replicate 32 255) = 2 ^ 256 - 1 by decide +kernel]; decide)

/-- Two scalars that stand for the same number and encode alike print differently. -/
theorem C113_violated : ¬ C113_scalar_statement ∧
    ∃ v w : Bytes, v.length = 32 ∧ w.length = 32 ∧ scMarshal v = scMarshal w ∧ displayScalar v ≠ displayScalar w := by
  constructor
  · intro h
    have hlt := (C113_scalar_exact (leBytes 32 L) (by simp) false).1 (h _ _ (by simp))
    revert hlt
    decide +kernel
  · refine ⟨scZero, leBytes 32 L, rfl, by simp, ?_, ?_⟩
    · rw [scMarshal_eq, scMarshal_eq]
      decide +kernel
    · rw [Ne, (C113_scalar scZero (leBytes 32 L) scZero rfl false false).2.2.2.2.2]
      decide +kernel

theorem zero_text : extZero.bytes = 1 :: List.replicate 31 0 := by
  set_option maxRecDepth 100000 in decide +kernel

example : baseExt.Valid ∧ extZero.Valid ∧
    displayPoint extZero = txt "Ed25519Point(0x0100000000000000000000000000000000000000000000000000000000000000)" ∧
    displayPoint extZero ≠ displayPoint baseExt := by
  refine ⟨base_valid, null_valid, ?_, ?_⟩
  · unfold displayPoint fmtPoint
    rw [zero_text]
    decide +kernel
  · rw [Ne, (C113_point _ _ null_valid base_valid false false).2, ptEq_iff extZero_rep baseExt_rep]
    exact fun h => base_ne h.symm

example : displayScalar scOne = txt "Ed25519Scalar(0x0100000000000000000000000000000000000000000000000000000000000000)" ∧
    leNat scOne < L := by decide +kernel

end Kyber.Props
