import Mathlib.NumberTheory.LucasPrimality
import Mathlib.Tactic.NormNum.Prime
/-!
# Primality certificates
-/
namespace Fhe.Pratt

/-- `a ^ e * acc` modulo `m`, for `e < 2 ^ fuel`. -/
def powMod (m : Nat) : (fuel a e acc : Nat) → Nat
  | 0, _, _, acc => acc % m
  | fuel + 1, a, e, acc => powMod m fuel (a * a % m) (e / 2) (if e % 2 = 1 then a * acc % m else acc)

theorem powMod_eq (m : Nat) : ∀ (fuel a e acc : Nat), e < 2 ^ fuel → powMod m fuel a e acc = a ^ e * acc % m
  | 0, a, e, acc, h => by
    obtain rfl : e = 0 := by simpa using h
    simp [powMod]
  | fuel + 1, a, e, acc, h => by
    rw [powMod, powMod_eq m fuel _ _ _ (by rw [pow_succ] at h; omega)]
    have h2 : (a * a % m) ^ (e / 2) ≡ (a * a) ^ (e / 2) [MOD m] := (Nat.mod_modEq _ _).pow _
    rcases Nat.mod_two_eq_zero_or_one e with h' | h'
    · rw [if_neg (by omega)]
      have : e = 2 * (e / 2) := by omega
      conv_rhs => rw [this, pow_mul, pow_two]
      exact h2.mul_right _
    · rw [if_pos h']
      have : e = 2 * (e / 2) + 1 := by omega
      conv_rhs => rw [this, pow_succ, pow_mul, pow_two, mul_assoc]
      exact h2.mul (Nat.mod_modEq _ _)

/-- The certificate: `a` has order `p - 1` modulo `p`; the list are the prime factors of `p - 1` with their exponents. -/
def checkCert (p a : Nat) (fs : List (Nat × Nat)) : Bool :=
  decide (1 < p) && decide (p < 2 ^ 64) && decide ((fs.map fun f => f.1 ^ f.2).prod = p - 1) && decide (powMod p 64 a (p - 1) 1 = 1) &&
    fs.all fun f => decide (powMod p 64 a ((p - 1) / f.1) 1 ≠ 1)

theorem prime_of_cert {p : Nat} (a : Nat) (fs : List (Nat × Nat)) (h : checkCert p a fs = true) (hq : ∀ f ∈ fs, f.1.Prime) : p.Prime := by
  unfold checkCert at h
  simp only [Bool.and_eq_true, decide_eq_true_eq, List.all_eq_true] at h
  obtain ⟨⟨⟨⟨h0, h1⟩, h2⟩, h3⟩, h4⟩ := h
  rw [powMod_eq _ _ _ _ _ (by omega), mul_one] at h3
  have key : ∀ e, ((a : ZMod p) ^ e = 1 ↔ a ^ e % p = 1) := fun e => by
    rw [← Nat.cast_pow, ← Nat.cast_one, ZMod.natCast_eq_natCast_iff', Nat.mod_eq_of_lt h0]
  refine lucas_primality p (a : ZMod p) ((key _).2 h3) fun q hqp hqd => ?_
  rw [← h2] at hqd
  obtain ⟨x, hx, hd⟩ := (Prime.dvd_prod_iff hqp.prime).1 hqd
  obtain ⟨f, hf, rfl⟩ := List.mem_map.1 hx
  obtain rfl : q = f.1 := (Nat.prime_dvd_prime_iff_eq hqp (hq f hf)).1 (hqp.dvd_of_dvd_pow hd)
  have := h4 f hf
  rw [powMod_eq _ _ _ _ _ (lt_of_le_of_lt (Nat.div_le_self _ _) (by omega)), mul_one] at this
  exact fun hc => this ((key _).1 hc)

end Fhe.Pratt
