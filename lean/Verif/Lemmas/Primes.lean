import Verif.Lemmas.Zq
import Verif.Model.Util
/-! Lemmas about prime generation. -/
namespace Fhe

/-- `lz64 t = 64 - bits` says that `t` has exactly `bits` bits. -/
theorem lz_eq_iff {t bits : Nat} (h1 : 1 ≤ bits) (h2 : bits ≤ 64) (ht : t < 2 ^ 64) :
    lz64 t = 64 - bits ↔ 2 ^ (bits - 1) ≤ t ∧ t < 2 ^ bits := by
  have hb : bitLen t ≤ 64 := bitLen_le_iff.2 ht
  have e1 : bitLen t ≤ bits ↔ t < 2 ^ bits := bitLen_le_iff
  have e2 : bitLen t ≤ bits - 1 ↔ t < 2 ^ (bits - 1) := bitLen_le_iff
  unfold lz64
  constructor
  · intro h
    refine ⟨?_, e1.1 (by omega)⟩
    by_contra hc
    have := e2.2 (by omega)
    omega
  · rintro ⟨ha, hb'⟩
    have := e1.2 hb'
    have : ¬ bitLen t ≤ bits - 1 := fun hc => by have := e2.1 hc; omega
    omega

theorem primeLoop1_spec {modulo bits : Nat} (h1 : 1 ≤ bits) (h2 : bits ≤ 62) (t0 : Nat) (ht : t0 < 2 ^ bits) :
    let t := primeLoop1 modulo (64 - bits) t0
    t ≤ t0 ∧ (2 ^ (bits - 1) ≤ t → t % modulo = 1) ∧ ∀ u, t < u → u ≤ t0 → u % modulo ≠ 1 := by
  have hpow : 2 ^ bits ≤ 2 ^ 62 := Nat.pow_le_pow_right (by norm_num) h2
  have hpos : 0 < 2 ^ (bits - 1) := by positivity
  induction t0 with
  | zero => exact ⟨Nat.le_refl _, fun h => by simp [primeLoop1] at h, fun u h3 h4 => by simp [primeLoop1] at h3; omega⟩
  | succ t ih =>
    simp only [primeLoop1]
    split
    · rename_i hc
      obtain ⟨i1, i2, i3⟩ := ih (by omega)
      refine ⟨by omega, i2, fun u h3 h4 => ?_⟩
      rcases Nat.lt_or_ge t u with h | h
      · obtain rfl : u = t + 1 := by omega
        exact hc.1
      · exact i3 u h3 h
    · rename_i hc
      refine ⟨Nat.le_refl _, fun h => ?_, fun u h3 h4 => by omega⟩
      by_contra hne
      exact hc ⟨hne, (lz_eq_iff h1 (by omega) (by omega)).2 ⟨h, ht⟩⟩

theorem primeLoop2_spec {modulo bits : Nat} (hm : 2 ≤ modulo) (h1 : 2 ≤ bits) (h2 : bits ≤ 62) (t0 : Nat) (ht : t0 < 2 ^ bits)
    (hmod : 2 ^ (bits - 1) ≤ t0 → t0 % modulo = 1) :
    let t := primeLoop2 modulo (64 - bits) t0
    t ≤ t0 ∧ (2 ^ (bits - 1) ≤ t → t % modulo = 1 ∧ t.Prime) ∧
      ∀ u, t < u → u ≤ t0 → 2 ^ (bits - 1) ≤ u → u % modulo = 1 → ¬ u.Prime := by
  have hpow : 2 ^ bits ≤ 2 ^ 62 := Nat.pow_le_pow_right (by norm_num) h2
  have hpos : 2 ≤ 2 ^ (bits - 1) := Nat.le_self_pow (by omega) 2
  induction t0 using Nat.strong_induction_on with
  | _ t0 ih =>
    rw [primeLoop2]
    split
    · rename_i hc
      obtain ⟨c1, c2, c3, -⟩ := hc
      have hrange := (lz_eq_iff (by omega) (by omega) (by omega)).1 c1
      have hmod' := hmod hrange.1
      have hsub : (t0 - modulo) % modulo = 1 := by
        rw [← hmod', ← Nat.mod_eq_sub_mod c3]
      obtain ⟨i1, i2, i3⟩ := ih (t0 - modulo) (by omega) (by omega) (fun _ => hsub)
      refine ⟨by omega, i2, fun u h3 h4 h5 h6 => ?_⟩
      rcases Nat.lt_or_ge (t0 - modulo) u with h | h
      · -- strictly between two consecutive candidates, or the candidate itself
        have : u = t0 := by
          have hdvd : modulo ∣ t0 - u :=
            (Nat.modEq_iff_dvd' h4).1 (show u % modulo = t0 % modulo by rw [h6, hmod'])
          have := Nat.eq_zero_of_dvd_of_lt hdvd (by omega)
          omega
        subst this
        simpa [isPrime] using c2
      · exact i3 u h3 h h5 h6
    · rename_i hc
      refine ⟨Nat.le_refl _, fun h => ⟨hmod h, ?_⟩, fun u h3 h4 => by omega⟩
      by_contra hp
      have hmt := hmod h
      apply hc
      refine ⟨(lz_eq_iff (by omega) (by omega) (by omega)).2 ⟨h, ht⟩, by simpa [isPrime] using hp, ?_, by omega⟩
      by_contra hlt
      rw [Nat.mod_eq_of_lt (by omega)] at hmt
      omega

end Fhe
