import Verif.Lemmas.Pratt
/-!
# Primality of the predefined moduli

Generated certificates: for each number a generator of the multiplicative group and the factors of its order.
-/
namespace Fhe
open Pratt

theorem prime_2 : Nat.Prime 2 := by norm_num
theorem prime_3 : Nat.Prime 3 := by norm_num
theorem prime_7 : Nat.Prime 7 := by norm_num
theorem prime_132120577 : Nat.Prime 132120577 := prime_of_cert 5 [(2, 21), (3, 2), (7, 1)] (by decide +kernel) (by simp [prime_2, prime_3, prime_7])
theorem prime_11 : Nat.Prime 11 := by norm_num
theorem prime_31 : Nat.Prime 31 := by norm_num
theorem prime_151 : Nat.Prime 151 := by norm_num
theorem prime_331 : Nat.Prime 331 := by norm_num
theorem prime_18014398492704769 : Nat.Prime 18014398492704769 := prime_of_cert 38 [(2, 24), (3, 2), (7, 1), (11, 1), (31, 1), (151, 1), (331, 1)] (by decide +kernel) (by simp [prime_2, prime_3, prime_7, prime_11, prime_31, prime_151, prime_331])
theorem prime_17 : Nat.Prime 17 := by norm_num
theorem prime_5 : Nat.Prime 5 := by norm_num
theorem prime_257 : Nat.Prime 257 := by norm_num
theorem prime_82241 : Nat.Prime 82241 := prime_of_cert 3 [(2, 6), (5, 1), (257, 1)] (by decide +kernel) (by simp [prime_2, prime_5, prime_257])
theorem prime_493447 : Nat.Prime 493447 := prime_of_cert 3 [(2, 1), (3, 1), (82241, 1)] (by decide +kernel) (by simp [prime_2, prime_3, prime_82241])
theorem prime_68719403009 : Nat.Prime 68719403009 := prime_of_cert 3 [(2, 13), (17, 1), (493447, 1)] (by decide +kernel) (by simp [prime_2, prime_17, prime_493447])
theorem prime_593 : Nat.Prime 593 := by norm_num
theorem prime_643 : Nat.Prime 643 := by norm_num
theorem prime_68719230977 : Nat.Prime 68719230977 := prime_of_cert 3 [(2, 14), (11, 1), (593, 1), (643, 1)] (by decide +kernel) (by simp [prime_2, prime_11, prime_593, prime_643])
theorem prime_41 : Nat.Prime 41 := by norm_num
theorem prime_137438822401 : Nat.Prime 137438822401 := prime_of_cert 14 [(2, 17), (3, 1), (5, 2), (11, 1), (31, 1), (41, 1)] (by decide +kernel) (by simp [prime_2, prime_3, prime_5, prime_11, prime_31, prime_41])
theorem prime_71 : Nat.Prime 71 := by norm_num
theorem prime_61 : Nat.Prime 61 := by norm_num
theorem prime_1033 : Nat.Prime 1033 := by norm_num
theorem prime_3780781 : Nat.Prime 3780781 := prime_of_cert 2 [(2, 2), (3, 1), (5, 1), (61, 1), (1033, 1)] (by decide +kernel) (by simp [prime_2, prime_3, prime_5, prime_61, prime_1033])
theorem prime_8796092858369 : Nat.Prime 8796092858369 := prime_of_cert 3 [(2, 15), (71, 1), (3780781, 1)] (by decide +kernel) (by simp [prime_2, prime_71, prime_3780781])
theorem prime_4813 : Nat.Prime 4813 := by norm_num
theorem prime_6197 : Nat.Prime 6197 := by norm_num
theorem prime_8796092792833 : Nat.Prime 8796092792833 := prime_of_cert 7 [(2, 15), (3, 2), (4813, 1), (6197, 1)] (by decide +kernel) (by simp [prime_2, prime_3, prime_4813, prime_6197])
theorem prime_17592186028033 : Nat.Prime 17592186028033 := prime_of_cert 5 [(2, 14), (3, 2), (7, 1), (11, 1), (31, 1), (151, 1), (331, 1)] (by decide +kernel) (by simp [prime_2, prime_3, prime_7, prime_11, prime_31, prime_151, prime_331])
theorem prime_53 : Nat.Prime 53 := by norm_num
theorem prime_163 : Nat.Prime 163 := by norm_num
theorem prime_1381 : Nat.Prime 1381 := by norm_num
theorem prime_2251031 : Nat.Prime 2251031 := prime_of_cert 17 [(2, 1), (5, 1), (163, 1), (1381, 1)] (by decide +kernel) (by simp [prime_2, prime_5, prime_163, prime_1381])
theorem prime_17592185438209 : Nat.Prime 17592185438209 := prime_of_cert 23 [(2, 14), (3, 2), (53, 1), (2251031, 1)] (by decide +kernel) (by simp [prime_2, prime_3, prime_53, prime_2251031])
theorem prime_47 : Nat.Prime 47 := by norm_num
theorem prime_73 : Nat.Prime 73 := by norm_num
theorem prime_449 : Nat.Prime 449 := by norm_num
theorem prime_17592184717313 : Nat.Prime 17592184717313 := prime_of_cert 3 [(2, 14), (17, 1), (41, 1), (47, 1), (73, 1), (449, 1)] (by decide +kernel) (by simp [prime_2, prime_17, prime_41, prime_47, prime_73, prime_449])
theorem prime_13 : Nat.Prime 13 := by norm_num
theorem prime_7759 : Nat.Prime 7759 := by norm_num
theorem prime_19 : Nat.Prime 19 := by norm_num
theorem prime_83 : Nat.Prime 83 := by norm_num
theorem prime_28387 : Nat.Prime 28387 := prime_of_cert 2 [(2, 1), (3, 2), (19, 1), (83, 1)] (by decide +kernel) (by simp [prime_2, prime_3, prime_19, prime_83])
theorem prime_281474976546817 : Nat.Prime 281474976546817 := prime_of_cert 5 [(2, 15), (3, 1), (13, 1), (7759, 1), (28387, 1)] (by decide +kernel) (by simp [prime_2, prime_3, prime_13, prime_7759, prime_28387])
theorem prime_23 : Nat.Prime 23 := by norm_num
theorem prime_181 : Nat.Prime 181 := by norm_num
theorem prime_22605091 : Nat.Prime 22605091 := prime_of_cert 11 [(2, 1), (3, 1), (5, 1), (23, 1), (181, 2)] (by decide +kernel) (by simp [prime_2, prime_3, prime_5, prime_23, prime_181])
theorem prime_281474976317441 : Nat.Prime 281474976317441 := prime_of_cert 3 [(2, 17), (5, 1), (19, 1), (22605091, 1)] (by decide +kernel) (by simp [prime_2, prime_5, prime_19, prime_22605091])
theorem prime_29 : Nat.Prime 29 := by norm_num
theorem prime_43 : Nat.Prime 43 := by norm_num
theorem prime_113 : Nat.Prime 113 := by norm_num
theorem prime_127 : Nat.Prime 127 := by norm_num
theorem prime_281474975662081 : Nat.Prime 281474975662081 := prime_of_cert 7 [(2, 20), (3, 1), (5, 1), (29, 1), (43, 1), (113, 1), (127, 1)] (by decide +kernel) (by simp [prime_2, prime_3, prime_5, prime_29, prime_43, prime_113, prime_127])
theorem prime_157109 : Nat.Prime 157109 := prime_of_cert 2 [(2, 2), (7, 1), (31, 1), (181, 1)] (by decide +kernel) (by simp [prime_2, prime_7, prime_31, prime_181])
theorem prime_1145324611 : Nat.Prime 1145324611 := prime_of_cert 3 [(2, 1), (3, 6), (5, 1), (157109, 1)] (by decide +kernel) (by simp [prime_2, prime_3, prime_5, prime_157109])
theorem prime_562949952798721 : Nat.Prime 562949952798721 := prime_of_cert 7 [(2, 15), (3, 1), (5, 1), (1145324611, 1)] (by decide +kernel) (by simp [prime_2, prime_3, prime_5, prime_1145324611])
theorem prime_1567 : Nat.Prime 1567 := by norm_num
theorem prime_25073 : Nat.Prime 25073 := prime_of_cert 3 [(2, 4), (1567, 1)] (by decide +kernel) (by simp [prime_2, prime_1567])
theorem prime_2719 : Nat.Prime 2719 := by norm_num
theorem prime_114199 : Nat.Prime 114199 := prime_of_cert 6 [(2, 1), (3, 1), (7, 1), (2719, 1)] (by decide +kernel) (by simp [prime_2, prime_3, prime_7, prime_2719])
theorem prime_562949952700417 : Nat.Prime 562949952700417 := prime_of_cert 5 [(2, 16), (3, 1), (25073, 1), (114199, 1)] (by decide +kernel) (by simp [prime_2, prime_3, prime_25073, prime_114199])
theorem prime_443 : Nat.Prime 443 := by norm_num
theorem prime_4153 : Nat.Prime 4153 := by norm_num
theorem prime_1337267 : Nat.Prime 1337267 := prime_of_cert 2 [(2, 1), (7, 1), (23, 1), (4153, 1)] (by decide +kernel) (by simp [prime_2, prime_7, prime_23, prime_4153])
theorem prime_562949952274433 : Nat.Prime 562949952274433 := prime_of_cert 3 [(2, 15), (29, 1), (443, 1), (1337267, 1)] (by decide +kernel) (by simp [prime_2, prime_29, prime_443, prime_1337267])
theorem prime_199 : Nat.Prime 199 := by norm_num
theorem prime_4111 : Nat.Prime 4111 := by norm_num
theorem prime_122713351 : Nat.Prime 122713351 := prime_of_cert 6 [(2, 1), (3, 1), (5, 2), (199, 1), (4111, 1)] (by decide +kernel) (by simp [prime_2, prime_3, prime_5, prime_199, prime_4111])
theorem prime_562949951979521 : Nat.Prime 562949951979521 := prime_of_cert 6 [(2, 17), (5, 1), (7, 1), (122713351, 1)] (by decide +kernel) (by simp [prime_2, prime_5, prime_7, prime_122713351])
theorem prime_7457 : Nat.Prime 7457 := by norm_num
theorem prime_563 : Nat.Prime 563 := by norm_num
theorem prime_37159 : Nat.Prime 37159 := prime_of_cert 3 [(2, 1), (3, 1), (11, 1), (563, 1)] (by decide +kernel) (by simp [prime_2, prime_3, prime_11, prime_563])
theorem prime_554189327 : Nat.Prime 554189327 := prime_of_cert 5 [(2, 1), (7457, 1), (37159, 1)] (by decide +kernel) (by simp [prime_2, prime_7457, prime_37159])
theorem prime_562949951881217 : Nat.Prime 562949951881217 := prime_of_cert 3 [(2, 15), (31, 1), (554189327, 1)] (by decide +kernel) (by simp [prime_2, prime_31, prime_554189327])
theorem prime_139 : Nat.Prime 139 := by norm_num
theorem prime_503 : Nat.Prime 503 := by norm_num
theorem prime_4614523 : Nat.Prime 4614523 := prime_of_cert 2 [(2, 1), (3, 1), (11, 1), (139, 1), (503, 1)] (by decide +kernel) (by simp [prime_2, prime_3, prime_11, prime_139, prime_503])
theorem prime_562949951619073 : Nat.Prime 562949951619073 := prime_of_cert 10 [(2, 15), (3, 1), (17, 1), (73, 1), (4614523, 1)] (by decide +kernel) (by simp [prime_2, prime_3, prime_17, prime_73, prime_4614523])
theorem prime_97 : Nat.Prime 97 := by norm_num
theorem prime_178481 : Nat.Prime 178481 := prime_of_cert 3 [(2, 4), (5, 1), (23, 1), (97, 1)] (by decide +kernel) (by simp [prime_2, prime_5, prime_23, prime_97])
theorem prime_89 : Nat.Prime 89 := by norm_num
theorem prime_683 : Nat.Prime 683 := by norm_num
theorem prime_2796203 : Nat.Prime 2796203 := prime_of_cert 5 [(2, 1), (23, 1), (89, 1), (683, 1)] (by decide +kernel) (by simp [prime_2, prime_23, prime_89, prime_683])
theorem prime_4611686018427322369 : Nat.Prime 4611686018427322369 := prime_of_cert 7 [(2, 16), (3, 1), (47, 1), (178481, 1), (2796203, 1)] (by decide +kernel) (by simp [prime_2, prime_3, prime_47, prime_178481, prime_2796203])
theorem prime_137 : Nat.Prime 137 := by norm_num
theorem prime_11497 : Nat.Prime 11497 := by norm_num
theorem prime_1034731 : Nat.Prime 1034731 := prime_of_cert 2 [(2, 1), (3, 2), (5, 1), (11497, 1)] (by decide +kernel) (by simp [prime_2, prime_3, prime_5, prime_11497])
theorem prime_10272809369 : Nat.Prime 10272809369 := prime_of_cert 3 [(2, 3), (17, 1), (73, 1), (1034731, 1)] (by decide +kernel) (by simp [prime_2, prime_17, prime_73, prime_1034731])
theorem prime_5629499534213 : Nat.Prime 5629499534213 := prime_of_cert 2 [(2, 2), (137, 1), (10272809369, 1)] (by decide +kernel) (by simp [prime_2, prime_137, prime_10272809369])
theorem prime_4611686018427289601 : Nat.Prime 4611686018427289601 := prime_of_cert 3 [(2, 15), (5, 2), (5629499534213, 1)] (by decide +kernel) (by simp [prime_2, prime_5, prime_5629499534213])
theorem prime_211 : Nat.Prime 211 := by norm_num
theorem prime_149 : Nat.Prime 149 := by norm_num
theorem prime_3313 : Nat.Prime 3313 := by norm_num
theorem prime_8337528931 : Nat.Prime 8337528931 := prime_of_cert 7 [(2, 1), (3, 1), (5, 1), (149, 1), (563, 1), (3313, 1)] (by decide +kernel) (by simp [prime_2, prime_3, prime_5, prime_149, prime_563, prime_3313])
theorem prime_4611686018425815041 : Nat.Prime 4611686018425815041 := prime_of_cert 3 [(2, 19), (5, 1), (211, 1), (8337528931, 1)] (by decide +kernel) (by simp [prime_2, prime_5, prime_211, prime_8337528931])
theorem prime_2251 : Nat.Prime 2251 := by norm_num
theorem prime_22511 : Nat.Prime 22511 := prime_of_cert 11 [(2, 1), (5, 1), (2251, 1)] (by decide +kernel) (by simp [prime_2, prime_5, prime_2251])
theorem prime_1613 : Nat.Prime 1613 := by norm_num
theorem prime_80651 : Nat.Prime 80651 := prime_of_cert 2 [(2, 1), (5, 2), (1613, 1)] (by decide +kernel) (by simp [prime_2, prime_5, prime_1613])
theorem prime_161303 : Nat.Prime 161303 := prime_of_cert 5 [(2, 1), (80651, 1)] (by decide +kernel) (by simp [prime_2, prime_80651])
theorem prime_4611686018424733697 : Nat.Prime 4611686018424733697 := prime_of_cert 3 [(2, 15), (7, 3), (113, 1), (22511, 1), (161303, 1)] (by decide +kernel) (by simp [prime_2, prime_7, prime_113, prime_22511, prime_161303])
theorem prime_3253 : Nat.Prime 3253 := by norm_num
theorem prime_5011 : Nat.Prime 5011 := by norm_num
theorem prime_2207 : Nat.Prime 2207 := by norm_num
theorem prime_2877929 : Nat.Prime 2877929 := prime_of_cert 3 [(2, 3), (163, 1), (2207, 1)] (by decide +kernel) (by simp [prime_2, prime_163, prime_2207])
theorem prime_4611686018423881729 : Nat.Prime 4611686018423881729 := prime_of_cert 7 [(2, 15), (3, 1), (3253, 1), (5011, 1), (2877929, 1)] (by decide +kernel) (by simp [prime_2, prime_3, prime_3253, prime_5011, prime_2877929])
theorem prime_313 : Nat.Prime 313 := by norm_num
theorem prime_6703 : Nat.Prime 6703 := by norm_num
theorem prime_421 : Nat.Prime 421 := by norm_num
theorem prime_2213 : Nat.Prime 2213 := by norm_num
theorem prime_1863347 : Nat.Prime 1863347 := prime_of_cert 2 [(2, 1), (421, 1), (2213, 1)] (by decide +kernel) (by simp [prime_2, prime_421, prime_2213])
theorem prime_7818749353067 : Nat.Prime 7818749353067 := prime_of_cert 2 [(2, 1), (313, 1), (6703, 1), (1863347, 1)] (by decide +kernel) (by simp [prime_2, prime_313, prime_6703, prime_1863347])
theorem prime_4611686018423390209 : Nat.Prime 4611686018423390209 := prime_of_cert 11 [(2, 16), (3, 2), (7818749353067, 1)] (by decide +kernel) (by simp [prime_2, prime_3, prime_7818749353067])
theorem prime_223 : Nat.Prime 223 := by norm_num
theorem prime_523 : Nat.Prime 523 := by norm_num
theorem prime_103 : Nat.Prime 103 := by norm_num
theorem prime_229 : Nat.Prime 229 := by norm_num
theorem prime_1279 : Nat.Prime 1279 := by norm_num
theorem prime_301677731 : Nat.Prime 301677731 := prime_of_cert 2 [(2, 1), (5, 1), (103, 1), (229, 1), (1279, 1)] (by decide +kernel) (by simp [prime_2, prime_5, prime_103, prime_229, prime_1279])
theorem prime_4611686018423062529 : Nat.Prime 4611686018423062529 := prime_of_cert 3 [(2, 17), (223, 1), (523, 1), (301677731, 1)] (by decide +kernel) (by simp [prime_2, prime_223, prime_523, prime_301677731])
theorem prime_4583 : Nat.Prime 4583 := by norm_num
theorem prime_7993 : Nat.Prime 7993 := by norm_num
theorem prime_5717 : Nat.Prime 5717 := by norm_num
theorem prime_34303 : Nat.Prime 34303 := prime_of_cert 17 [(2, 1), (3, 1), (5717, 1)] (by decide +kernel) (by simp [prime_2, prime_3, prime_5717])
theorem prime_4611686018422669313 : Nat.Prime 4611686018422669313 := prime_of_cert 3 [(2, 19), (7, 1), (4583, 1), (7993, 1), (34303, 1)] (by decide +kernel) (by simp [prime_2, prime_7, prime_4583, prime_7993, prime_34303])
theorem prime_37 : Nat.Prime 37 := by norm_num
theorem prime_827 : Nat.Prime 827 := by norm_num
theorem prime_7867 : Nat.Prime 7867 := by norm_num
theorem prime_31469 : Nat.Prime 31469 := prime_of_cert 2 [(2, 2), (7867, 1)] (by decide +kernel) (by simp [prime_2, prime_7867])
theorem prime_4611686018422112257 : Nat.Prime 4611686018422112257 := prime_of_cert 5 [(2, 15), (3, 1), (11, 1), (37, 1), (43, 1), (103, 1), (827, 1), (31469, 1)] (by decide +kernel) (by simp [prime_2, prime_3, prime_11, prime_37, prime_43, prime_103, prime_827, prime_31469])
theorem prime_1229 : Nat.Prime 1229 := by norm_num
theorem prime_2221 : Nat.Prime 2221 := by norm_num
theorem prime_2393 : Nat.Prime 2393 := by norm_num
theorem prime_669671479 : Nat.Prime 669671479 := prime_of_cert 3 [(2, 1), (3, 2), (7, 1), (2221, 1), (2393, 1)] (by decide +kernel) (by simp [prime_2, prime_3, prime_7, prime_2221, prime_2393])
theorem prime_4611686018421915649 : Nat.Prime 4611686018421915649 := prime_of_cert 14 [(2, 15), (3, 2), (19, 1), (1229, 1), (669671479, 1)] (by decide +kernel) (by simp [prime_2, prime_3, prime_19, prime_1229, prime_669671479])

/-- Ten primes of 62 bits that are one modulo 32768. -/
def bigPrimes : List Nat := [4611686018427322369, 4611686018427289601, 4611686018425815041, 4611686018424733697, 4611686018423881729, 4611686018423390209, 4611686018423062529, 4611686018422669313, 4611686018422112257, 4611686018421915649]

theorem bigPrimes_prime : ∀ p ∈ bigPrimes, p.Prime := by
  simp only [bigPrimes, List.mem_cons, List.not_mem_nil, or_false]
  rintro p (rfl | rfl | rfl | rfl | rfl | rfl | rfl | rfl | rfl | rfl)
  exacts [prime_4611686018427322369, prime_4611686018427289601, prime_4611686018425815041, prime_4611686018424733697, prime_4611686018423881729, prime_4611686018423390209, prime_4611686018423062529, prime_4611686018422669313, prime_4611686018422112257, prime_4611686018421915649]

end Fhe
