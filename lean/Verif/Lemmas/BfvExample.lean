import Verif.Lemmas.BfvParams
import Mathlib.NumberTheory.LucasPrimality
import Mathlib.FieldTheory.Finite.Basic
import Mathlib.Tactic.NormNum.Prime
/-! Ingredients of concrete instances: a build whose random stream is lucky, and primes of 62 bits. -/
namespace Fhe

theorem mapM_some_inv {α β : Type} {f : α → Option β} : ∀ {l : List α} {l' : List β}, l.mapM f = some l' → List.Forall₂ (fun a c => f a = some c) l l'
  | [], l', h => by
    rw [List.mapM_nil] at h
    obtain rfl : [] = l' := by simpa using h
    exact .nil
  | a :: l, l', h => by
    rw [List.mapM_cons] at h
    simp only [Option.bind_eq_bind, Option.bind_eq_some_iff] at h
    obtain ⟨c, h1, cs, h2, h3⟩ := h
    obtain rfl : c :: cs = l' := by simpa using h3
    exact .cons h1 (mapM_some_inv h2)

/-- `a ^ e % m` by repeated squaring. -/
def powMod (m : Nat) : (fuel a e acc : Nat) → Nat
  | 0, _, _, acc => acc
  | fuel + 1, a, e, acc => if e = 0 then acc else powMod m fuel (a * a % m) (e / 2) (if e % 2 = 1 then acc * a % m else acc)

theorem powMod_eq {m : Nat} : ∀ (fuel a e acc : Nat), e < 2 ^ fuel → (powMod m fuel a e acc : ZMod m) = acc * (a : ZMod m) ^ e
  | 0, a, e, acc, h => by
    rw [pow_zero] at h
    obtain rfl : e = 0 := by omega
    rw [powMod, pow_zero, mul_one]
  | fuel + 1, a, e, acc, h => by
    rw [powMod]
    split
    · rename_i he; rw [he, pow_zero, mul_one]
    · rw [powMod_eq fuel _ _ _ (by rw [pow_succ] at h; omega), ZMod.natCast_mod, Nat.cast_mul]
      have he : e = 2 * (e / 2) + e % 2 := by omega
      rcases Nat.mod_two_eq_zero_or_one e with h0 | h0
      · rw [if_neg (by omega)]
        conv_rhs => rw [he, h0, add_zero, pow_mul, pow_two]
      · rw [if_pos h0, ZMod.natCast_mod, Nat.cast_mul]
        conv_rhs => rw [he, h0, pow_succ, pow_mul, pow_two]
        ring

/-- Primality by the criterion of Lucas, with the odd primes dividing `p - 1` listed. -/
theorem lucas {p a k e : Nat} (l : List Nat) (hp : p = k * 2 ^ e + 1) (h1 : 1 < p) (h64 : p < 2 ^ 64) (hk : ∀ q, q.Prime → q ∣ k → q ∈ l)
    (h : powMod p 64 a (p - 1) 1 = 1) (hl : ∀ q ∈ 2 :: l, powMod p 64 a ((p - 1) / q) 1 % p ≠ 1) : p.Prime := by
  have hlt : Fact (1 < p) := ⟨h1⟩
  refine lucas_primality p (a : ZMod p) ?_ ?_
  · have := powMod_eq (m := p) 64 a (p - 1) 1 (by omega)
    rw [h, Nat.cast_one, one_mul] at this
    exact this.symm
  · intro q hq hd he
    have hmem : q ∈ 2 :: l := by
      rw [hp, Nat.add_sub_cancel, hq.dvd_mul] at hd
      rcases hd with hd | hd
      · exact List.mem_cons_of_mem _ (hk q hq hd)
      · rw [(Nat.prime_dvd_prime_iff_eq hq Nat.prime_two).1 (hq.dvd_of_dvd_pow hd)]; simp
    refine hl q hmem ?_
    have := powMod_eq (m := p) 64 a ((p - 1) / q) 1 (by have := Nat.div_le_self (p - 1) q; omega)
    rw [he, mul_one, ZMod.natCast_eq_natCast_iff', Nat.mod_eq_of_lt h1] at this
    exact this

theorem prime1 : Nat.Prime 2936346957045563393 :=
  lucas (a := 3) (k := 163) (e := 54) [163] (by norm_num) (by norm_num) (by norm_num)
    (fun q hq h => by rw [(Nat.prime_dvd_prime_iff_eq hq (by norm_num)).1 h]; simp) (by decide +kernel) (by decide +kernel)
theorem prime2 : Nat.Prime 3188548536178311169 :=
  lucas (a := 7) (k := 177) (e := 54) [3, 59] (by norm_num) (by norm_num) (by norm_num)
    (fun q hq h => by
      rw [show (177 : Nat) = 3 * 59 by norm_num, hq.dvd_mul] at h
      rcases h with h | h <;> rw [(Nat.prime_dvd_prime_iff_eq hq (by norm_num)).1 h] <;> simp) (by decide +kernel) (by decide +kernel)
theorem prime3 : Nat.Prime 2485986994308513793 :=
  lucas (a := 5) (k := 69) (e := 55) [3, 23] (by norm_num) (by norm_num) (by norm_num)
    (fun q hq h => by
      rw [show (69 : Nat) = 3 * 23 by norm_num, hq.dvd_mul] at h
      rcases h with h | h <;> rw [(Nat.prime_dvd_prime_iff_eq hq (by norm_num)).1 h] <;> simp) (by decide +kernel) (by decide +kernel)
theorem prime4 : Nat.Prime 4179340454199820289 :=
  lucas (a := 3) (k := 29) (e := 57) [29] (by norm_num) (by norm_num) (by norm_num)
    (fun q hq h => by rw [(Nat.prime_dvd_prime_iff_eq hq (by norm_num)).1 h]; simp) (by decide +kernel) (by decide +kernel)

/-- A build whose stream yields a nonsquare at once for every odd prime. -/
noncomputable def luckyBuild : Build :=
  ⟨true, true, fun p _ => by
    classical exact if h : ∃ a, a < p ∧ ¬ IsSquare (a : ZMod p) then h.choose else 0⟩

theorem luckyBuild_ok : luckyBuild.OK := by
  intro p i hp
  simp only [luckyBuild]
  split
  · rename_i h; exact h.choose_spec.1
  · exact hp

theorem luckyBuild_lucky : luckyBuild.Lucky := by
  intro p hp h2 _
  refine ⟨0, by norm_num, ?_⟩
  have : Fact p.Prime := ⟨hp⟩
  obtain ⟨x, hx⟩ := FiniteField.exists_nonsquare (F := ZMod p) (by rw [ZMod.ringChar_zmod_n]; omega)
  have h : ∃ a, a < p ∧ ¬ IsSquare (a : ZMod p) := ⟨x.val, ZMod.val_lt x, by rw [ZMod.natCast_zmod_val]; exact hx⟩
  simp only [luckyBuild]
  rw [dif_pos h]
  exact h.choose_spec.2

/-- Up to three moduli, none of 62 bits: there are enough primes of 62 bits for degrees up to `2 ^ 53`. -/
theorem enough_primes {n : Nat} (hn : n ≤ 53) {moduli : List Nat} (h : moduli.length ≤ 3) (hm : ∀ m ∈ moduli, m < 2 ^ 61) {l : List Nat} (hl : l.length < moduli.length + 1) :
    ¬ ∀ p, ParamsBuilder.IsModulus (2 ^ n) 62 p → p ∉ moduli → p ∈ l := by
  intro hc
  have hmod : ∀ k e, 1 ≤ k → 54 ≤ e → (k * 2 ^ e + 1) % (2 * 2 ^ n) = 1 := by
    intro k e _ he
    rw [← pow_succ', show e = (n + 1) + (e - (n + 1)) by omega, pow_add, ← mul_assoc, mul_comm k, mul_assoc, Nat.mul_add_mod, Nat.mod_eq_of_lt (Nat.one_lt_two_pow (by omega))]
  have hin : ∀ p ∈ [2936346957045563393, 3188548536178311169, 2485986994308513793, 4179340454199820289], p ∈ l := by
    intro p hp
    have hp' : p.Prime ∧ 2 ^ 61 ≤ p ∧ p < 2 ^ 62 ∧ p % (2 * 2 ^ n) = 1 := by
      simp only [List.mem_cons, List.not_mem_nil, or_false] at hp
      rcases hp with rfl | rfl | rfl | rfl
      · exact ⟨prime1, by norm_num, by norm_num, hmod 163 54 (by norm_num) (by norm_num)⟩
      · exact ⟨prime2, by norm_num, by norm_num, hmod 177 54 (by norm_num) (by norm_num)⟩
      · exact ⟨prime3, by norm_num, by norm_num, hmod 69 55 (by norm_num) (by norm_num)⟩
      · exact ⟨prime4, by norm_num, by norm_num, hmod 29 57 (by norm_num) (by norm_num)⟩
    refine hc p hp' fun h' => ?_
    have := hm p h'
    omega
  have hnd : [2936346957045563393, 3188548536178311169, 2485986994308513793, 4179340454199820289].Nodup := by decide
  have := (hnd.subperm hin).length_le
  simp at this
  omega

end Fhe
