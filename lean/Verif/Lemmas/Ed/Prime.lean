/-
`2^255 - 19` and the order of the base point are primes, by Pratt certificates.
-/
import Mathlib.NumberTheory.LucasPrimality
import Mathlib.Tactic.NormNum.Prime

namespace Kyber.Ed

/-- `a^e % m` for `e < 2^fuel` by repeated squaring. -/
def powMod (m : Nat) : Nat → Nat → Nat → Nat
  | 0, _, _ => 1 % m
  | k + 1, a, e =>
    let r := powMod m k (a * a % m) (e / 2)
    if e % 2 = 1 then a * r % m else r

theorem powMod_eq (m k a e : Nat) (h : e < 2 ^ k) : powMod m k a e = a ^ e % m := by
  induction k generalizing a e with
  | zero =>
    have : e = 0 := by simpa using h
    subst this; rfl
  | succ k ih =>
    have h2 : e / 2 < 2 ^ k := by rw [pow_succ] at h; omega
    have key : powMod m k (a * a % m) (e / 2) = (a ^ 2) ^ (e / 2) % m := by
      rw [ih _ _ h2, ← pow_two, ← Nat.pow_mod]
    simp only [powMod, key]
    split
    · rename_i ho
      conv_rhs => rw [← Nat.div_add_mod e 2, ho, pow_add, pow_mul, pow_one, Nat.mul_comm]
      rw [Nat.mul_mod, Nat.mod_mod, ← Nat.mul_mod]
    · rename_i ho
      have he : e % 2 = 0 := by omega
      conv_rhs => rw [← Nat.div_add_mod e 2, he, Nat.add_zero, pow_mul]

theorem pratt (n a k : Nat) (fs : List (Nat × Nat)) (hp : ∀ q ∈ fs, q.1.Prime)
    (hprod : (fs.map (fun x => x.1 ^ x.2)).prod = n - 1) (hk : n < 2 ^ k)
    (hc : powMod n k a (n - 1) = 1 ∧ ∀ q ∈ fs, powMod n k a ((n - 1) / q.1) ≠ 1 % n) : n.Prime := by
  apply lucas_primality n (a : ZMod n)
  · have h := hc.1
    rw [powMod_eq _ _ _ _ (by omega)] at h
    have h' : ((a ^ (n - 1) % n : Nat) : ZMod n) = ((1 : Nat) : ZMod n) := by rw [h]
    rw [ZMod.natCast_mod] at h'
    push_cast at h'
    exact h'
  · intro q hq hd
    rw [← hprod] at hd
    obtain ⟨x, hx, hdx⟩ := (Prime.dvd_prod_iff hq.prime).1 hd
    obtain ⟨y, hy, rfl⟩ := List.mem_map.1 hx
    have hqy : q = y.1 := (Nat.prime_dvd_prime_iff_eq hq (hp y hy)).1 (hq.dvd_of_dvd_pow hdx)
    subst hqy
    have h := hc.2 y hy
    rw [powMod_eq _ _ _ _ (lt_of_le_of_lt (Nat.div_le_self _ _) (by omega))] at h
    intro h1
    apply h
    have h2 : ((a ^ ((n - 1) / y.1) : Nat) : ZMod n) = ((1 : Nat) : ZMod n) := by
      push_cast; exact h1
    exact (ZMod.natCast_eq_natCast_iff' _ _ _).1 h2

theorem prime_1224481 : Nat.Prime 1224481 := by
  apply pratt _ 13 21
    [(2, 5),
     (3, 1),
     (5, 1),
     (2551, 1)]
  · intro q hq
    simp only [List.mem_cons, List.not_mem_nil, or_false] at hq
    rcases hq with rfl | rfl | rfl | rfl
    · norm_num
    · norm_num
    · norm_num
    · norm_num
  · decide +kernel
  · norm_num
  · decide +kernel

theorem prime_1923133 : Nat.Prime 1923133 := by
  apply pratt _ 2 21
    [(2, 2),
     (3, 1),
     (43, 1),
     (3727, 1)]
  · intro q hq
    simp only [List.mem_cons, List.not_mem_nil, or_false] at hq
    rcases hq with rfl | rfl | rfl | rfl
    · norm_num
    · norm_num
    · norm_num
    · norm_num
  · decide +kernel
  · norm_num
  · decide +kernel

theorem prime_8574133 : Nat.Prime 8574133 := by
  apply pratt _ 2 24
    [(2, 2),
     (3, 1),
     (7, 1),
     (103, 1),
     (991, 1)]
  · intro q hq
    simp only [List.mem_cons, List.not_mem_nil, or_false] at hq
    rcases hq with rfl | rfl | rfl | rfl | rfl
    · norm_num
    · norm_num
    · norm_num
    · norm_num
    · norm_num
  · decide +kernel
  · norm_num
  · decide +kernel

theorem prime_14741173 : Nat.Prime 14741173 := by
  apply pratt _ 2 24
    [(2, 2),
     (3, 2),
     (409477, 1)]
  · intro q hq
    simp only [List.mem_cons, List.not_mem_nil, or_false] at hq
    rcases hq with rfl | rfl | rfl
    · norm_num
    · norm_num
    · norm_num
  · decide +kernel
  · norm_num
  · decide +kernel

theorem prime_58964693 : Nat.Prime 58964693 := by
  apply pratt _ 2 26
    [(2, 2),
     (14741173, 1)]
  · intro q hq
    simp only [List.mem_cons, List.not_mem_nil, or_false] at hq
    rcases hq with rfl | rfl
    · norm_num
    · exact prime_14741173
  · decide +kernel
  · norm_num
  · decide +kernel

theorem prime_292386187 : Nat.Prime 292386187 := by
  apply pratt _ 2 29
    [(2, 1),
     (3, 4),
     (307, 1),
     (5879, 1)]
  · intro q hq
    simp only [List.mem_cons, List.not_mem_nil, or_false] at hq
    rcases hq with rfl | rfl | rfl | rfl
    · norm_num
    · norm_num
    · norm_num
    · norm_num
  · decide +kernel
  · norm_num
  · decide +kernel

theorem prime_2773320623 : Nat.Prime 2773320623 := by
  apply pratt _ 5 32
    [(2, 1),
     (2437, 1),
     (569003, 1)]
  · intro q hq
    simp only [List.mem_cons, List.not_mem_nil, or_false] at hq
    rcases hq with rfl | rfl | rfl
    · norm_num
    · norm_num
    · norm_num
  · decide +kernel
  · norm_num
  · decide +kernel

theorem prime_72106336199 : Nat.Prime 72106336199 := by
  apply pratt _ 7 37
    [(2, 1),
     (13, 1),
     (2773320623, 1)]
  · intro q hq
    simp only [List.mem_cons, List.not_mem_nil, or_false] at hq
    rcases hq with rfl | rfl | rfl
    · norm_num
    · norm_num
    · exact prime_2773320623
  · decide +kernel
  · norm_num
  · decide +kernel

theorem prime_213441916511 : Nat.Prime 213441916511 := by
  apply pratt _ 13 38
    [(2, 1),
     (5, 1),
     (73, 1),
     (292386187, 1)]
  · intro q hq
    simp only [List.mem_cons, List.not_mem_nil, or_false] at hq
    rcases hq with rfl | rfl | rfl | rfl
    · norm_num
    · norm_num
    · norm_num
    · exact prime_292386187
  · decide +kernel
  · norm_num
  · decide +kernel

theorem prime_1257559732178653 : Nat.Prime 1257559732178653 := by
  apply pratt _ 2 51
    [(2, 2),
     (3, 1),
     (7, 1),
     (23, 1),
     (531581, 1),
     (1224481, 1)]
  · intro q hq
    simp only [List.mem_cons, List.not_mem_nil, or_false] at hq
    rcases hq with rfl | rfl | rfl | rfl | rfl | rfl
    · norm_num
    · norm_num
    · norm_num
    · norm_num
    · norm_num
    · exact prime_1224481
  · decide +kernel
  · norm_num
  · decide +kernel

theorem prime_1919519569386763 : Nat.Prime 1919519569386763 := by
  apply pratt _ 2 51
    [(2, 1),
     (3, 1),
     (7, 1),
     (19, 1),
     (47, 2),
     (127, 1),
     (8574133, 1)]
  · intro q hq
    simp only [List.mem_cons, List.not_mem_nil, or_false] at hq
    rcases hq with rfl | rfl | rfl | rfl | rfl | rfl | rfl
    · norm_num
    · norm_num
    · norm_num
    · norm_num
    · norm_num
    · norm_num
    · exact prime_8574133
  · decide +kernel
  · norm_num
  · decide +kernel

theorem prime_31757755568855353 : Nat.Prime 31757755568855353 := by
  apply pratt _ 10 55
    [(2, 3),
     (3, 1),
     (31, 1),
     (107, 1),
     (223, 1),
     (4153, 1),
     (430751, 1)]
  · intro q hq
    simp only [List.mem_cons, List.not_mem_nil, or_false] at hq
    rcases hq with rfl | rfl | rfl | rfl | rfl | rfl | rfl
    · norm_num
    · norm_num
    · norm_num
    · norm_num
    · norm_num
    · norm_num
    · norm_num
  · decide +kernel
  · norm_num
  · decide +kernel

theorem prime_4434155615661930479 : Nat.Prime 4434155615661930479 := by
  apply pratt _ 17 62
    [(2, 1),
     (41, 1),
     (43, 1),
     (1257559732178653, 1)]
  · intro q hq
    simp only [List.mem_cons, List.not_mem_nil, or_false] at hq
    rcases hq with rfl | rfl | rfl | rfl
    · norm_num
    · norm_num
    · norm_num
    · exact prime_1257559732178653
  · decide +kernel
  · norm_num
  · decide +kernel

theorem prime_3044861653679985063343 : Nat.Prime 3044861653679985063343 := by
  apply pratt _ 5 72
    [(2, 1),
     (3, 1),
     (11, 1),
     (30703, 1),
     (82163, 1),
     (132667, 1),
     (137849, 1)]
  · intro q hq
    simp only [List.mem_cons, List.not_mem_nil, or_false] at hq
    rcases hq with rfl | rfl | rfl | rfl | rfl | rfl | rfl
    · norm_num
    · norm_num
    · norm_num
    · norm_num
    · norm_num
    · norm_num
    · norm_num
  · decide +kernel
  · norm_num
  · decide +kernel

theorem prime_172054593956031949258510691 : Nat.Prime 172054593956031949258510691 := by
  apply pratt _ 2 88
    [(2, 1),
     (5, 1),
     (1361, 1),
     (2851, 1),
     (4434155615661930479, 1)]
  · intro q hq
    simp only [List.mem_cons, List.not_mem_nil, or_false] at hq
    rcases hq with rfl | rfl | rfl | rfl | rfl
    · norm_num
    · norm_num
    · norm_num
    · norm_num
    · exact prime_4434155615661930479
  · decide +kernel
  · norm_num
  · decide +kernel

theorem prime_198211423230930754013084525763697 : Nat.Prime 198211423230930754013084525763697 := by
  apply pratt _ 5 108
    [(2, 4),
     (3, 1),
     (23, 1),
     (58964693, 1),
     (3044861653679985063343, 1)]
  · intro q hq
    simp only [List.mem_cons, List.not_mem_nil, or_false] at hq
    rcases hq with rfl | rfl | rfl | rfl | rfl
    · norm_num
    · norm_num
    · norm_num
    · exact prime_58964693
    · exact prime_3044861653679985063343
  · decide +kernel
  · norm_num
  · decide +kernel

theorem prime_75445702479781427272750846543864801 : Nat.Prime 75445702479781427272750846543864801 := by
  apply pratt _ 7 116
    [(2, 5),
     (3, 2),
     (5, 2),
     (75707, 1),
     (72106336199, 1),
     (1919519569386763, 1)]
  · intro q hq
    simp only [List.mem_cons, List.not_mem_nil, or_false] at hq
    rcases hq with rfl | rfl | rfl | rfl | rfl | rfl
    · norm_num
    · norm_num
    · norm_num
    · norm_num
    · exact prime_72106336199
    · exact prime_1919519569386763
  · decide +kernel
  · norm_num
  · decide +kernel

theorem prime_19757330305831588566944191468367130476339 : Nat.Prime 19757330305831588566944191468367130476339 := by
  apply pratt _ 2 134
    [(2, 1),
     (269, 1),
     (213441916511, 1),
     (172054593956031949258510691, 1)]
  · intro q hq
    simp only [List.mem_cons, List.not_mem_nil, or_false] at hq
    rcases hq with rfl | rfl | rfl | rfl
    · norm_num
    · norm_num
    · exact prime_213441916511
    · exact prime_172054593956031949258510691
  · decide +kernel
  · norm_num
  · decide +kernel

theorem prime_276602624281642239937218680557139826668747 : Nat.Prime 276602624281642239937218680557139826668747 := by
  apply pratt _ 2 138
    [(2, 1),
     (7, 1),
     (19757330305831588566944191468367130476339, 1)]
  · intro q hq
    simp only [List.mem_cons, List.not_mem_nil, or_false] at hq
    rcases hq with rfl | rfl | rfl
    · norm_num
    · norm_num
    · exact prime_19757330305831588566944191468367130476339
  · decide +kernel
  · norm_num
  · decide +kernel

theorem prime_74058212732561358302231226437062788676166966415465897661863160754340907 : Nat.Prime 74058212732561358302231226437062788676166966415465897661863160754340907 := by
  apply pratt _ 2 236
    [(2, 1),
     (3, 1),
     (353, 1),
     (57467, 1),
     (132049, 1),
     (1923133, 1),
     (31757755568855353, 1),
     (75445702479781427272750846543864801, 1)]
  · intro q hq
    simp only [List.mem_cons, List.not_mem_nil, or_false] at hq
    rcases hq with rfl | rfl | rfl | rfl | rfl | rfl | rfl | rfl
    · norm_num
    · norm_num
    · norm_num
    · norm_num
    · norm_num
    · exact prime_1923133
    · exact prime_31757755568855353
    · exact prime_75445702479781427272750846543864801
  · decide +kernel
  · norm_num
  · decide +kernel

theorem prime_l : Nat.Prime (2 ^ 252 + 27742317777372353535851937790883648493) := by
  apply pratt _ 2 253
    [(2, 2),
     (3, 1),
     (11, 1),
     (198211423230930754013084525763697, 1),
     (276602624281642239937218680557139826668747, 1)]
  · intro q hq
    simp only [List.mem_cons, List.not_mem_nil, or_false] at hq
    rcases hq with rfl | rfl | rfl | rfl | rfl
    · norm_num
    · norm_num
    · norm_num
    · exact prime_198211423230930754013084525763697
    · exact prime_276602624281642239937218680557139826668747
  · decide +kernel
  · norm_num
  · decide +kernel

theorem prime_p : Nat.Prime (2 ^ 255 - 19) := by
  apply pratt _ 2 255
    [(2, 2),
     (3, 1),
     (65147, 1),
     (74058212732561358302231226437062788676166966415465897661863160754340907, 1)]
  · intro q hq
    simp only [List.mem_cons, List.not_mem_nil, or_false] at hq
    rcases hq with rfl | rfl | rfl | rfl
    · norm_num
    · norm_num
    · norm_num
    · exact prime_74058212732561358302231226437062788676166966415465897661863160754340907
  · decide +kernel
  · norm_num
  · decide +kernel

end Kyber.Ed
