import Verif.Model.Float
import Verif.Spec.Float
import Mathlib.Data.Int.Log
import Mathlib.Algebra.Order.Round
import Mathlib.Tactic.Linarith
import Mathlib.Tactic.FieldSimp
/-!
# Lemmas about rounding
-/
namespace Fhe.Float64

variable {rnd : ℝ → ℝ}

theorem isFloat_mul {z : ℤ} (h : |z| ≤ 2 ^ 53) (e : ℤ) : IsFloat (z * (2 : ℝ) ^ e) := by
  rcases lt_or_eq_of_le h with h | h
  · exact ⟨z, e, h, rfl⟩
  · have h2 : (2 : ℝ) ^ (e + 1) = 2 * 2 ^ e := by rw [zpow_add₀ (by norm_num), zpow_one]; ring
    rcases (abs_eq (by norm_num)).1 h with h | h
    · refine ⟨2 ^ 52, e + 1, by norm_num, ?_⟩
      rw [h, h2]; push_cast; ring
    · refine ⟨-2 ^ 52, e + 1, by norm_num, ?_⟩
      rw [h, h2]; push_cast; ring

theorem isFloat_int {z : ℤ} (h : |z| ≤ 2 ^ 53) : IsFloat z := by simpa using isFloat_mul h 0

theorem isFloat_nat {n : ℕ} (h : n ≤ 2 ^ 53) : IsFloat n := by
  have := isFloat_int (z := n) (by rw [abs_of_nonneg (by positivity)]; exact_mod_cast h)
  exact_mod_cast this

theorem Rounding.of_float (h : Rounding rnd) {x : ℝ} (hx : IsFloat x) : rnd x = x := by
  have := (h x).2 x hx
  rw [sub_self, abs_zero] at this
  exact sub_eq_zero.1 (abs_eq_zero.1 (le_antisymm this (abs_nonneg _)))

/-- The exponent at which a number has a significand of 53 bits. -/
theorem exists_exponent {x : ℝ} (hx : x ≠ 0) : ∃ e : ℤ, 2 ^ 52 * (2 : ℝ) ^ e ≤ |x| ∧ |x| < 2 ^ 53 * (2 : ℝ) ^ e := by
  have h1 := Int.zpow_log_le_self (b := 2) (r := |x|) (by norm_num) (abs_pos.2 hx)
  have h2 := Int.lt_zpow_succ_log_self (b := 2) (by norm_num) |x|
  push_cast at h1 h2
  refine ⟨Int.log 2 |x| - 52, ?_, ?_⟩
  · calc (2 ^ 52 * (2 : ℝ) ^ (Int.log 2 |x| - 52)) = 2 ^ Int.log 2 |x| := by
          rw [zpow_sub₀ (by norm_num), show (2 : ℝ) ^ (52 : ℤ) = 2 ^ 52 by norm_num]; field_simp
      _ ≤ |x| := h1
  · calc |x| < 2 ^ (Int.log 2 |x| + 1) := h2
      _ = 2 ^ 53 * (2 : ℝ) ^ (Int.log 2 |x| - 52) := by
          rw [zpow_sub₀ (by norm_num), zpow_add₀ (by norm_num)]; norm_num; ring

/-- The multiple of the unit in the last place next to a number is a floating-point number, and no other multiple is nearer. -/
theorem round_unit {x : ℝ} {e : ℤ} (h : |x| < 2 ^ 53 * (2 : ℝ) ^ e) : IsFloat (round (x / 2 ^ e) * (2 : ℝ) ^ e) ∧
    (∀ k : ℤ, |round (x / 2 ^ e) * (2 : ℝ) ^ e - x| ≤ |k * (2 : ℝ) ^ e - x|) ∧ |round (x / 2 ^ e) * (2 : ℝ) ^ e - x| ≤ 2 ^ e / 2 := by
  have he : (0 : ℝ) < 2 ^ e := by positivity
  have hd : ∀ k : ℤ, |k * (2 : ℝ) ^ e - x| = |x / 2 ^ e - k| * 2 ^ e := fun k => by
    rw [← abs_of_pos he, ← abs_mul, abs_of_pos he, abs_sub_comm]
    congr 1
    field_simp
  refine ⟨isFloat_mul ?_ e, fun k => ?_, ?_⟩
  · have h1 : |x / 2 ^ e| < 2 ^ 53 := by rw [abs_div, abs_of_pos he, div_lt_iff₀ he]; exact h
    have h2 := abs_sub_round (x / 2 ^ e)
    have h3 : (|round (x / 2 ^ e)| : ℝ) < 2 ^ 53 + 1 := by
      have := abs_sub_abs_le_abs_sub (round (x / 2 ^ e) : ℝ) (x / 2 ^ e)
      rw [abs_sub_comm] at this
      linarith
    have h4 : |round (x / 2 ^ e)| < 2 ^ 53 + 1 := by exact_mod_cast h3
    omega
  · rw [hd, hd]
    exact mul_le_mul_of_nonneg_right (round_le _ k) he.le
  · rw [hd]
    have := abs_sub_round (x / 2 ^ e)
    nlinarith

/-- There is a way to round. -/
theorem exists_rounding : ∃ rnd, Rounding rnd := by
  have : ∀ x : ℝ, ∃ r, IsNearest x r := fun x => by
    by_cases hx : x = 0
    · subst hx
      exact ⟨0, by simpa using isFloat_int (z := 0) (by norm_num), fun y _ => by simp⟩
    · obtain ⟨e, h1, h2⟩ := exists_exponent hx
      obtain ⟨h3, h4, -⟩ := round_unit h2
      refine ⟨_, h3, ?_⟩
      rintro y ⟨m, f, hm, rfl⟩
      rcases le_or_gt e f with hf | hf
      · obtain ⟨d, rfl⟩ := Int.le.dest hf
        have := h4 (m * 2 ^ d)
        rw [zpow_add₀ (by norm_num), zpow_natCast]
        push_cast at this
        rw [mul_assoc, mul_comm ((2 : ℝ) ^ d)] at this
        exact this
      · -- `y` is below the smallest significand at the exponent of `x`, which lies between them
        have hy : |(m : ℝ) * 2 ^ f| ≤ 2 ^ 52 * 2 ^ e := by
          rw [abs_mul, abs_of_pos (show (0 : ℝ) < 2 ^ f by positivity)]
          have h5 : (2 : ℝ) ^ f ≤ 2 ^ (e - 1) := zpow_le_zpow_right₀ (by norm_num) (by omega)
          have h6 : (|m| : ℝ) ≤ 2 ^ 53 := by exact_mod_cast hm.le
          calc (|m| : ℝ) * 2 ^ f ≤ 2 ^ 53 * 2 ^ (e - 1) := mul_le_mul h6 h5 (by positivity) (by positivity)
            _ = 2 ^ 52 * 2 ^ e := by rw [zpow_sub₀ (by norm_num)]; norm_num; ring
        have h7 := abs_sub_abs_le_abs_sub x ((m : ℝ) * 2 ^ f)
        rw [abs_sub_comm] at h7
        rcases le_or_gt 0 x with hx0 | hx0
        · have h8 := h4 (2 ^ 52)
          rw [show ((2 ^ 52 : ℤ) : ℝ) = 2 ^ 52 by norm_num] at h8
          rw [abs_of_nonneg hx0] at h1 h7
          rw [abs_of_nonpos (a := (2 : ℝ) ^ 52 * 2 ^ e - x) (by linarith)] at h8
          linarith
        · have h8 := h4 (-2 ^ 52)
          rw [show ((-2 ^ 52 : ℤ) : ℝ) = -2 ^ 52 by norm_num] at h8
          rw [abs_of_neg hx0] at h1 h7
          rw [abs_of_nonneg (a := -(2 : ℝ) ^ 52 * 2 ^ e - x) (by linarith)] at h8
          linarith
  choose r hr using this
  exact ⟨r, hr⟩

/-- Rounding changes a number by a part of `2^53` at most. -/
theorem Rounding.rel (h : Rounding rnd) (x : ℝ) : |rnd x - x| ≤ |x| / 2 ^ 53 := by
  by_cases hx : x = 0
  · subst hx
    rw [h.of_float (by simpa using isFloat_int (z := 0) (by norm_num))]
    simp
  · obtain ⟨e, h1, h2⟩ := exists_exponent hx
    obtain ⟨h3, -, h5⟩ := round_unit h2
    refine ((h x).2 _ h3).trans (h5.trans ?_)
    rw [le_div_iff₀ (by norm_num)]
    calc (2 : ℝ) ^ e / 2 * 2 ^ 53 = 2 ^ 52 * 2 ^ e := by ring
      _ ≤ |x| := h1

theorem Rounding.bounds (h : Rounding rnd) {x : ℝ} (hx : 0 ≤ x) : (1 - 1 / 2 ^ 53) * x ≤ rnd x ∧ rnd x ≤ (1 + 1 / 2 ^ 53) * x := by
  have := abs_le.1 (h.rel x)
  rw [abs_of_nonneg hx] at this
  constructor <;> linarith

/-- Sums of integers are exact. -/
theorem Rounding.sum (h : Rounding rnd) {B : ℕ} : ∀ {values : List Int} {acc : Int}, (∀ v ∈ values, |v| ≤ B) → |acc| + values.length * B ≤ 2 ^ 53 →
    values.foldl (fun (acc : ℝ) (i : Int) => rnd (acc + rnd i)) (acc : ℝ) = acc + (values.map fun v : Int => (v : ℝ)).sum
  | [], acc, _, _ => by simp
  | v :: vs, acc, hv, hb => by
    have h1 := hv v (by simp)
    have h2 := abs_add_le acc v
    rw [List.length_cons] at hb
    push_cast at hb
    have h3 : (0 : ℤ) ≤ vs.length * B := by positivity
    have h4 : |acc + v| + vs.length * B ≤ 2 ^ 53 := by linarith
    have h0 := abs_nonneg acc
    rw [List.foldl_cons, h.of_float (isFloat_int (z := v) (by linarith)), ← Int.cast_add, h.of_float (isFloat_int (z := acc + v) (by linarith)),
      h.sum (fun x hx => hv x (List.mem_cons_of_mem _ hx)) h4]
    push_cast
    rw [List.map_cons, List.sum_cons]; ring

/-- A rounded square. -/
theorem Rounding.square (h : Rounding rnd) (d : ℝ) : (1 - 1 / 2 ^ 53) ^ 3 * d ^ 2 ≤ rnd (rnd d * rnd d) ∧ rnd (rnd d * rnd d) ≤ (1 + 1 / 2 ^ 53) ^ 3 * d ^ 2 := by
  have hs := h.bounds (mul_self_nonneg (rnd d))
  have hd := h.rel d
  rw [div_eq_mul_one_div] at hd
  have hu : (0 : ℝ) ≤ 1 - 1 / 2 ^ 53 := by norm_num
  have hu' : (0 : ℝ) ≤ 1 + 1 / 2 ^ 53 := by norm_num
  generalize (1 : ℝ) / 2 ^ 53 = u at *
  have e1 : |rnd d| ≤ (1 + u) * |d| := by
    have := abs_sub_abs_le_abs_sub (rnd d) d
    linarith
  have e2 : (1 - u) * |d| ≤ |rnd d| := by
    have := abs_sub_abs_le_abs_sub d (rnd d)
    rw [abs_sub_comm d (rnd d)] at this
    linarith
  rw [← abs_mul_abs_self (rnd d)] at hs ⊢
  rw [← sq_abs d]
  have e0 : 0 ≤ (1 - u) * |d| := mul_nonneg hu (abs_nonneg d)
  have e3 := mul_le_mul e1 e1 (abs_nonneg _) (mul_nonneg hu' (abs_nonneg d))
  have e4 := mul_le_mul e2 e2 e0 (abs_nonneg _)
  constructor
  · calc (1 - u) ^ 3 * |d| ^ 2 = (1 - u) * ((1 - u) * |d| * ((1 - u) * |d|)) := by ring
      _ ≤ (1 - u) * (|rnd d| * |rnd d|) := mul_le_mul_of_nonneg_left e4 hu
      _ ≤ _ := hs.1
  · calc _ ≤ (1 + u) * (|rnd d| * |rnd d|) := hs.2
      _ ≤ (1 + u) * ((1 + u) * |d| * ((1 + u) * |d|)) := mul_le_mul_of_nonneg_left e3 hu'
      _ = (1 + u) ^ 3 * |d| ^ 2 := by ring

theorem step_upper {u r acc s c T D : ℝ} (hu : 0 ≤ u) (hc : 0 ≤ c) (hT : 0 ≤ T) (hr : r ≤ (1 + u) * (acc + s)) (hs : s ≤ c * D) : r + c * T ≤ (1 + u) * (acc + c * (D + T)) := by
  have h1 : (1 + u) * s ≤ (1 + u) * (c * D) := mul_le_mul_of_nonneg_left hs (by linarith)
  have h2 : 0 ≤ u * (c * T) := by positivity
  linarith

theorem step_lower {u r acc s c T D : ℝ} (hu : 0 ≤ u) (hu' : 0 ≤ 1 - u) (hc : 0 ≤ c) (hT : 0 ≤ T) (hr : (1 - u) * (acc + s) ≤ r) (hs : c * D ≤ s) :
    (1 - u) * (acc + c * (D + T)) ≤ r + c * T := by
  have h1 : (1 - u) * (c * D) ≤ (1 - u) * s := mul_le_mul_of_nonneg_left hs hu'
  have h2 : 0 ≤ u * (c * T) := by positivity
  linarith

/-- The rounded sum of the rounded squares. -/
theorem Rounding.squares (h : Rounding rnd) {m : ℝ} : ∀ {values : List Int} {acc : ℝ}, (∀ v ∈ values, |v| ≤ 2 ^ 53) → 0 ≤ acc →
    (1 - 1 / 2 ^ 53) ^ values.length * (acc + (1 - 1 / 2 ^ 53) ^ 3 * (values.map fun v : Int => ((v : ℝ) - m) ^ 2).sum) ≤
      values.foldl (fun (acc : ℝ) (i : Int) => rnd (acc + rnd (rnd (rnd i - m) * rnd (rnd i - m)))) acc ∧
    values.foldl (fun (acc : ℝ) (i : Int) => rnd (acc + rnd (rnd (rnd i - m) * rnd (rnd i - m)))) acc ≤
      (1 + 1 / 2 ^ 53) ^ values.length * (acc + (1 + 1 / 2 ^ 53) ^ 3 * (values.map fun v : Int => ((v : ℝ) - m) ^ 2).sum)
  | [], acc, _, _ => by simp
  | v :: vs, acc, hv, ha => by
    have hu : (0 : ℝ) ≤ 1 / 2 ^ 53 := by norm_num
    have hu' : (0 : ℝ) ≤ 1 - 1 / 2 ^ 53 := by norm_num
    rw [List.foldl_cons, h.of_float (isFloat_int (hv v (by simp)))]
    obtain ⟨s1, s2⟩ := h.square ((v : ℝ) - m)
    have hs0 : 0 ≤ rnd (rnd ((v : ℝ) - m) * rnd ((v : ℝ) - m)) := le_trans (by positivity) s1
    obtain ⟨n1, n2⟩ := h.bounds (add_nonneg ha hs0)
    have hn0 := le_trans (mul_nonneg hu' (add_nonneg ha hs0)) n1
    obtain ⟨i1, i2⟩ := Rounding.squares h (m := m) (values := vs) (fun x hx => hv x (List.mem_cons_of_mem _ hx)) hn0
    rw [List.map_cons, List.sum_cons, List.length_cons]
    have hT : 0 ≤ (vs.map fun v : Int => ((v : ℝ) - m) ^ 2).sum := List.sum_nonneg fun x hx => by
      obtain ⟨y, -, rfl⟩ := List.mem_map.1 hx
      positivity
    generalize (1 : ℝ) / 2 ^ 53 = u at *
    constructor
    · refine le_trans ?_ i1
      rw [pow_succ (1 - u) vs.length, mul_assoc]
      exact mul_le_mul_of_nonneg_left (step_lower hu hu' (by positivity) hT n1 s1) (pow_nonneg hu' _)
    · refine i2.trans ?_
      rw [pow_succ (1 + u) vs.length, mul_assoc ((1 + u) ^ vs.length)]
      exact mul_le_mul_of_nonneg_left (step_upper hu (by positivity) hT n2 s2) (by positivity)

/-- The squared distances from a number near the mean. -/
theorem sum_squares {values : List Int} (h : values ≠ []) (m : ℝ) :
    (values.map fun v : Int => ((v : ℝ) - m) ^ 2).sum = (values.map fun v : Int => ((v : ℝ) - mean values) ^ 2).sum + values.length * (m - mean values) ^ 2 := by
  have key : ∀ (l : List Int) (m : ℝ), (l.map fun v : Int => ((v : ℝ) - m) ^ 2).sum = (l.map fun v : Int => (v : ℝ) ^ 2).sum - 2 * m * (l.map fun v : Int => (v : ℝ)).sum + l.length * m ^ 2 := by
    intro l m
    induction l with
    | nil => simp
    | cons x l ih =>
      simp only [List.map_cons, List.sum_cons, List.length_cons, ih]
      push_cast
      ring
  have hl : (values.length : ℝ) ≠ 0 := by
    have := List.length_pos_iff.2 h
    positivity
  have hS : (values.map fun v : Int => (v : ℝ)).sum = values.length * mean values := by unfold mean; field_simp
  rw [key, key, hS]
  ring

end Fhe.Float64
