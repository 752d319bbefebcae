import Verif.Lemmas.Float
/-!
# Property C95: rounding does not matter

The square root by which the examples of private information retrieval shape their database is, rounded up, the exact one, and `variance` is the
sample variance up to a small factor, however the operations round where two floating-point numbers are nearest.
-/
namespace Fhe.Props
open Float64

variable {rnd : ℝ → ℝ}

/-- C95: the rounded square root, rounded up, of a number of less than 53 bits is the least number whose square is not smaller. -/
theorem C95_sqrt (h : Rounding rnd) {rows : Nat} (hr : rows < 2 ^ 52) : rows ≤ Float64.ceilSqrt rnd rows ^ 2 ∧ (∀ k, rows ≤ k ^ 2 → Float64.ceilSqrt rnd rows ≤ k) ∧
    Float64.ceilSqrt rnd rows = Pir.ceilSqrt rows := by
  obtain ⟨m, hm⟩ : ∃ m, m = Nat.sqrt rows := ⟨_, rfl⟩
  have h1 : m * m ≤ rows := hm ▸ Nat.sqrt_le rows
  have h2 : rows < (m + 1) * (m + 1) := hm ▸ Nat.lt_succ_sqrt rows
  have hm26 : m < 2 ^ 26 := by nlinarith
  have hrow : rnd rows = rows := h.of_float (isFloat_nat (by omega))
  have hval : Float64.ceilSqrt rnd rows = if m * m = rows then m else m + 1 := by
    unfold Float64.ceilSqrt
    rw [hrow]
    split
    · next e =>
      rw [← e, Nat.cast_mul, Real.sqrt_mul_self (by positivity), h.of_float (isFloat_nat (by omega)), Nat.ceil_natCast]
    · next e =>
      have h3 : m * m + 1 ≤ rows := by omega
      have h3' : (m : ℝ) * m + 1 ≤ rows := by exact_mod_cast h3
      have h2' : (rows : ℝ) < (m + 1) * (m + 1) := by exact_mod_cast h2
      have hm' : (m : ℝ) + 1 ≤ 2 ^ 26 := by exact_mod_cast hm26
      have hm0 : (0 : ℝ) ≤ m := by positivity
      have s1 : (m : ℝ) + 1 / 2 ^ 27 < Real.sqrt rows := Real.lt_sqrt_of_sq_lt (by
        have : (m : ℝ) * (1 / 2 ^ 26) ≤ (2 ^ 26 - 1) * (1 / 2 ^ 26) := mul_le_mul_of_nonneg_right (by linarith) (by norm_num)
        nlinarith)
      have s2 : Real.sqrt rows < m + 1 := (Real.sqrt_lt' (by positivity)).2 (by rw [sq]; exact h2')
      obtain ⟨-, hnear⟩ := h (Real.sqrt rows)
      rw [Nat.ceil_eq_iff (by omega)]
      constructor
      · -- the number `m + 2^-26` is nearer than `m`
        by_contra hle
        rw [Nat.add_sub_cancel, not_lt] at hle
        have hy : IsFloat ((m : ℝ) + 1 / 2 ^ 26) := by
          have := isFloat_mul (z := m * 2 ^ 26 + 1) (by rw [abs_of_nonneg (by positivity)]; have : (m : ℤ) < 2 ^ 26 := by exact_mod_cast hm26
                                                        linarith) (-26)
          rw [show (((m * 2 ^ 26 + 1 : ℤ) : ℝ)) = m * 2 ^ 26 + 1 by push_cast; ring, show (2 : ℝ) ^ (-26 : ℤ) = 1 / 2 ^ 26 by rw [zpow_neg]; norm_num] at this
          convert this using 1
          ring
        have h5 := hnear _ hy
        rw [abs_of_nonpos (a := rnd (Real.sqrt rows) - Real.sqrt rows) (by linarith [show (0 : ℝ) < 1 / 2 ^ 27 by norm_num])] at h5
        rcases abs_cases ((m : ℝ) + 1 / 2 ^ 26 - Real.sqrt rows) with ⟨h6, -⟩ | ⟨h6, -⟩ <;> rw [h6] at h5 <;> linarith [show (1 : ℝ) / 2 ^ 26 = 1 / 2 ^ 27 + 1 / 2 ^ 27 by norm_num, show (0 : ℝ) < 1 / 2 ^ 26 by norm_num]
      · by_contra hlt
        rw [not_le] at hlt
        push_cast at hlt
        have h5 := hnear _ (isFloat_nat (n := m + 1) (by omega))
        push_cast at h5
        rw [abs_of_pos (by linarith), abs_of_pos (by linarith)] at h5
        linarith
  rw [hval]
  refine ⟨?_, fun k hk => ?_, ?_⟩
  · split <;> nlinarith
  · split
    · by_contra hlt
      have : k + 1 ≤ m := by omega
      nlinarith
    · by_contra hlt
      have : k ≤ m := by omega
      have : k ^ 2 ≤ m * m := by nlinarith
      omega
  · unfold Pir.ceilSqrt
    rw [← hm]

/-- C95: `variance` panics exactly if there are fewer than two values. -/
theorem C95_variance_panics (rnd : ℝ → ℝ) (values : List Int) : variance rnd values = none ↔ values.length < 2 := by
  unfold variance
  by_cases h : values.length > 1
  · rw [check_eq h]; simp; omega
  · rw [show check (values.length > 1) = none from if_neg h]; simp; omega

/-- C95: `variance` is the sample variance up to a factor of `(1 ± 2^-53)^(n + 4)` and the square of a part of `2^53` of the mean. -/
theorem C95_variance (h : Rounding rnd) {values : List Int} {B : Nat} (h2 : 2 ≤ values.length) (hv : ∀ v ∈ values, |v| ≤ B) (hB : values.length * B ≤ 2 ^ 53) (hn : values.length ≤ 2 ^ 53) :
    ∃ r, variance rnd values = some r ∧ (1 - 1 / 2 ^ 53) ^ (values.length + 4) * sampleVariance values ≤ r ∧
      r ≤ (1 + 1 / 2 ^ 53) ^ (values.length + 4) * (sampleVariance values + values.length / (values.length - 1) * (mean values / 2 ^ 53) ^ 2) := by
  have hlen : (2 : ℝ) ≤ values.length := by exact_mod_cast h2
  have hne : values ≠ [] := by intro e; rw [e] at h2; simp at h2
  have e1 : rnd (values.length : ℝ) = values.length := h.of_float (isFloat_nat hn)
  have e2 : rnd ((values.length : ℝ) - 1) = values.length - 1 := h.of_float (by
    have := isFloat_nat (n := values.length - 1) (by omega)
    rwa [Nat.cast_sub (by omega), Nat.cast_one] at this)
  have e3 : values.foldl (fun (acc : ℝ) (i : Int) => rnd (acc + rnd i)) 0 = (values.map fun v : Int => (v : ℝ)).sum := by
    have := h.sum (B := B) (values := values) (acc := 0) hv (by rw [abs_zero, zero_add]; exact_mod_cast hB)
    rwa [Int.cast_zero, zero_add] at this
  have hv' : ∀ v ∈ values, |v| ≤ 2 ^ 53 := fun v hx => (hv v hx).trans (by
    have : B ≤ values.length * B := Nat.le_mul_of_pos_left _ (by omega)
    exact_mod_cast this.trans hB)
  refine ⟨_, by unfold variance; rw [check_eq (by omega)]; rfl, ?_⟩
  rw [e1, e2, e3, show (values.map fun v : Int => (v : ℝ)).sum / values.length = mean values from rfl]
  obtain ⟨f1, f2⟩ := h.squares (m := rnd (mean values)) hv' le_rfl
  rw [zero_add, sum_squares hne] at f1 f2
  have hd := h.rel (mean values)
  have hsq : (rnd (mean values) - mean values) ^ 2 ≤ (mean values / 2 ^ 53) ^ 2 := by
    rw [← sq_abs (rnd (mean values) - mean values), ← sq_abs (mean values / 2 ^ 53), abs_div, abs_of_pos (show (0 : ℝ) < 2 ^ 53 by norm_num)]
    exact pow_le_pow_left₀ (abs_nonneg _) hd 2
  have hV : (values.map fun v : Int => ((v : ℝ) - mean values) ^ 2).sum = (values.length - 1) * sampleVariance values := by
    unfold sampleVariance
    rw [mul_div_cancel₀]
    linarith
  rw [hV] at f1 f2
  have hV0 : 0 ≤ sampleVariance values := div_nonneg (List.sum_nonneg fun x hx => by
    obtain ⟨y, -, rfl⟩ := List.mem_map.1 hx
    positivity) (by linarith)
  have hu : (0 : ℝ) ≤ 1 - 1 / 2 ^ 53 := by norm_num
  have hu' : (0 : ℝ) ≤ 1 + 1 / 2 ^ 53 := by norm_num
  have hl1 : (0 : ℝ) < values.length - 1 := by linarith
  have hF := le_trans (by have := sq_nonneg (rnd (mean values) - mean values); positivity) f1
  obtain ⟨g1, g2⟩ := h.bounds (div_nonneg hF hl1.le)
  have hsq0 := sq_nonneg (rnd (mean values) - mean values)
  generalize values.foldl (fun (acc : ℝ) (i : Int) => rnd (acc + rnd (rnd (rnd i - rnd (mean values)) * rnd (rnd i - rnd (mean values))))) 0 = F at *
  generalize (rnd (mean values) - mean values) ^ 2 = d at *
  generalize (mean values / 2 ^ 53) ^ 2 = D at *
  generalize (1 : ℝ) / 2 ^ 53 = u at *
  generalize sampleVariance values = V at *
  constructor
  · refine le_trans ?_ g1
    have : (1 - u) ^ (values.length + 3) * V ≤ F / (values.length - 1) := by
      rw [le_div_iff₀ hl1]
      refine le_trans ?_ f1
      rw [pow_add, mul_assoc, mul_assoc]
      refine mul_le_mul_of_nonneg_left (mul_le_mul_of_nonneg_left ?_ (pow_nonneg hu _)) (pow_nonneg hu _)
      have : 0 ≤ (values.length : ℝ) * d := by positivity
      linarith
    calc (1 - u) ^ (values.length + 4) * V = (1 - u) * ((1 - u) ^ (values.length + 3) * V) := by ring
      _ ≤ _ := mul_le_mul_of_nonneg_left this hu
  · refine g2.trans ?_
    have : F / (values.length - 1) ≤ (1 + u) ^ (values.length + 3) * (V + values.length / (values.length - 1) * D) := by
      rw [div_le_iff₀ hl1]
      refine f2.trans ?_
      rw [pow_add, mul_assoc ((1 + u) ^ values.length), mul_assoc ((1 + u) ^ values.length), mul_assoc ((1 + u) ^ 3)]
      refine mul_le_mul_of_nonneg_left (mul_le_mul_of_nonneg_left ?_ (pow_nonneg hu' _)) (pow_nonneg hu' _)
      have e : (V + values.length / (values.length - 1) * D) * ((values.length : ℝ) - 1) = (values.length - 1) * V + values.length * D := by field_simp
      rw [e]
      have : (values.length : ℝ) * d ≤ values.length * D := mul_le_mul_of_nonneg_left hsq (by linarith)
      linarith
    calc (1 + u) * (F / (values.length - 1)) ≤ (1 + u) * ((1 + u) ^ (values.length + 3) * (V + values.length / (values.length - 1) * D)) := mul_le_mul_of_nonneg_left this hu'
      _ = _ := by ring

/-- C95: the variance of equal values is exactly zero. -/
theorem C95_variance_constant (h : Rounding rnd) {n : Nat} {v : Int} (hn : 2 ≤ n) (hv : n * |v| ≤ 2 ^ 53) (hn' : n ≤ 2 ^ 53) : variance rnd (List.replicate n v) = some 0 := by
  have hz : IsFloat 0 := by simpa using isFloat_int (z := 0) (by norm_num)
  have e3 : (List.replicate n v).foldl (fun (acc : ℝ) (i : Int) => rnd (acc + rnd i)) 0 = n * v := by
    have := h.sum (B := v.natAbs) (values := List.replicate n v) (acc := 0) (fun x hx => by rw [(List.mem_replicate.1 hx).2]; simp) (by
      rw [abs_zero, zero_add, List.length_replicate, Int.natCast_natAbs]; exact hv)
    rw [Int.cast_zero, zero_add] at this
    rw [this]; simp
  have hv' : rnd (v : ℝ) = v := h.of_float (isFloat_int (by
    have : (1 : ℤ) * |v| ≤ n * |v| := mul_le_mul_of_nonneg_right (by omega) (abs_nonneg v)
    linarith))
  have hn0 : (n : ℝ) ≠ 0 := by positivity
  unfold variance
  rw [check_eq (by rw [List.length_replicate]; omega)]
  simp only [List.length_replicate, e3]
  rw [h.of_float (isFloat_nat hn'), mul_div_cancel_left₀ _ hn0, hv']
  have hfold : ∀ k, (List.replicate k v).foldl (fun (acc : ℝ) (i : Int) => rnd (acc + rnd (rnd (rnd i - v) * rnd (rnd i - v)))) 0 = 0 := by
    intro k
    induction k with
    | zero => rfl
    | succ k ih => rw [List.replicate_succ, List.foldl_cons, hv', sub_self, h.of_float hz, mul_zero, h.of_float hz, add_zero, h.of_float hz, ih]
  rw [hfold, zero_div, h.of_float hz]
  rfl

/-- The theorems apply: there is a way to round, and with it the variance of four values is nearly 38/3, and the root of ten million rows is 3163. -/
example : ∃ (rnd : ℝ → ℝ) (r : ℝ), Rounding rnd ∧ sampleVariance [1, 2, 4, 9] = 38 / 3 ∧ variance rnd [1, 2, 4, 9] = some r ∧ |r - 38 / 3| ≤ 1 / 2 ^ 40 ∧ Float64.ceilSqrt rnd 10000000 = 3163 := by
  obtain ⟨rnd, h⟩ := exists_rounding
  obtain ⟨r, h1, h2, h3⟩ := C95_variance h (values := [1, 2, 4, 9]) (B := 9) (by decide) (by decide) (by decide) (by decide)
  have hV : sampleVariance [1, 2, 4, 9] = 38 / 3 := by norm_num [sampleVariance, mean]
  have hM : mean [1, 2, 4, 9] = 4 := by norm_num [mean]
  rw [hV] at h2 h3
  rw [hM] at h3
  refine ⟨rnd, r, h, hV, h1, ?_, ?_⟩
  · rw [abs_le]
    norm_num at h2 h3 ⊢
    constructor <;> linarith
  · obtain ⟨a, b, -⟩ := C95_sqrt h (rows := 10000000) (by norm_num)
    have := b 3163 (by norm_num)
    by_contra hne
    have : Float64.ceilSqrt rnd 10000000 ≤ 3162 := by omega
    have := Nat.pow_le_pow_left this 2
    omega

end Fhe.Props
