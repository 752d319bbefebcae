import Mathlib.Algebra.BigOperators.Ring.Finset
import Mathlib.Analysis.SpecialFunctions.Trigonometric.Series
import Verif.Lemmas.Sampling
import Verif.Lemmas.IntPoly
/-!
# Tails of sums of samples
-/
namespace Fhe
open Finset Real

/-- A bit as a real sign. -/
noncomputable def sgnR (b : Bool) : ℝ := (sgn b : ℝ)

variable {K : Type} [Fintype K] [DecidableEq K]

/-- The moment generating function of a sum of signs. -/
theorem signs_mgf (y : K → ℝ) : ∑ f : K → Bool, exp (∑ k, y k * sgnR (f k)) ≤ 2 ^ Fintype.card K * exp (∑ k, y k ^ 2 / 2) := by
  have h1 : ∑ f : K → Bool, exp (∑ k, y k * sgnR (f k)) = ∏ k, ∑ b : Bool, exp (y k * sgnR b) := by
    rw [Finset.prod_univ_sum, Fintype.piFinset_univ]
    exact Finset.sum_congr rfl fun f _ => exp_sum _ _
  rw [h1, exp_sum, ← card_univ, ← prod_const, ← prod_mul_distrib]
  refine prod_le_prod (fun k _ => sum_nonneg fun b _ => (exp_pos _).le) fun k _ => ?_
  have : ∑ b : Bool, exp (y k * sgnR b) = 2 * cosh (y k) := by
    rw [Fintype.sum_bool, cosh_eq]
    simp [sgnR, sgn]
    ring
  rw [this]
  exact mul_le_mul_of_nonneg_left (cosh_le_exp_half_sq _) (by norm_num)

open scoped Classical in
/-- The tail of a sum of signs. -/
theorem signs_tail (y : K → ℝ) {S T : ℝ} (hS : ∑ k, y k ^ 2 ≤ S) (hS0 : 0 < S) (hT : 0 ≤ T) :
    ((univ.filter fun f : K → Bool => T ≤ ∑ k, y k * sgnR (f k)).card : ℝ) ≤ 2 ^ Fintype.card K * exp (-(T ^ 2 / (2 * S))) := by
  have h1 := signs_mgf fun k => T / S * y k
  have h2 : ((univ.filter fun f : K → Bool => T ≤ ∑ k, y k * sgnR (f k)).card : ℝ) * exp (T / S * T) ≤ ∑ f : K → Bool, exp (∑ k, T / S * y k * sgnR (f k)) := by
    rw [← nsmul_eq_mul, ← sum_const]
    refine le_trans (sum_le_sum fun f hf => ?_) (sum_le_sum_of_subset_of_nonneg (filter_subset _ _) fun f _ _ => (exp_pos _).le)
    refine exp_le_exp.2 ?_
    rw [sum_congr rfl fun k _ => mul_assoc (T / S) (y k) (sgnR (f k)), ← mul_sum]
    exact mul_le_mul_of_nonneg_left (mem_filter.1 hf).2 (div_nonneg hT hS0.le)
  have h3 : ∑ k, (T / S * y k) ^ 2 / 2 ≤ T ^ 2 / (2 * S) := by
    rw [sum_congr rfl fun k _ => show (T / S * y k) ^ 2 / 2 = (T / S) ^ 2 / 2 * y k ^ 2 by ring, ← mul_sum]
    calc _ ≤ (T / S) ^ 2 / 2 * S := mul_le_mul_of_nonneg_left hS (by positivity)
      _ = _ := by field_simp
  have h4 : exp (-(T ^ 2 / (2 * S))) = exp (T ^ 2 / (2 * S)) / exp (T / S * T) := by
    rw [← exp_sub]; congr 1; field_simp; ring
  rw [h4, ← mul_div_assoc, le_div_iff₀ (exp_pos _)]
  exact h2.trans (h1.trans (mul_le_mul_of_nonneg_left (exp_le_exp.2 h3) (by positivity)))

/-- Twice a combination of the entries of a sampled vector, as a signed sum of bits. -/
theorem combination_signs {n v W : Nat} (h1 : 1 ≤ v) (h2 : v ≤ 32) (hW : if v ≤ 16 then 4 * v * n ≤ 64 * W else 2 * n ≤ W) (a : Fin n → Int) :
    ∃ y : Fin (64 * W) → ℝ, ∑ k, y k ^ 2 = 4 * v * ∑ i, (a i : ℝ) ^ 2 ∧ ∀ w : Fin W → Fin (2 ^ 64), 2 * ((∑ i : Fin n, a i * entry n v w i : Int) : ℝ) = ∑ k, y k * sgnR (bitsOf w k) := by
  let β : Fin n × Fin (4 * v) → Fin (64 * W) := fun p => ⟨Props.cbdBlock v p.1 + p.2, block_lt hW h2 p.1.isLt p.2.isLt⟩
  have hβ : Function.Injective β := by
    rintro ⟨i, j⟩ ⟨i', j'⟩ h
    obtain ⟨e1, e2⟩ := block_inj h2 j.isLt j'.isLt (congrArg Fin.val h)
    exact Prod.ext (Fin.ext e1) (Fin.ext e2)
  let x : Fin n × Fin (4 * v) → ℝ := fun p => a p.1 * (if p.2.val < 2 * v then 1 else -1)
  have hext : ∀ (Φ : Fin (64 * W) → ℝ → ℝ), (∀ k, Φ k 0 = 0) → ∑ k, Φ k (Function.extend β x 0 k) = ∑ p, Φ (β p) (x p) := fun Φ h0 => by
    rw [← Finset.sum_subset (subset_univ (univ.image β)), sum_image (fun _ _ _ _ h => hβ h)]
    · exact sum_congr rfl fun p _ => by rw [hβ.extend_apply]
    · intro k _ hk
      rw [Function.extend_apply' _ _ _ fun ⟨p, hp⟩ => hk (mem_image.2 ⟨p, mem_univ _, hp⟩)]
      exact h0 k
  refine ⟨Function.extend β x 0, ?_, fun w => ?_⟩
  · rw [hext (fun _ t => t ^ 2) (by simp), Fintype.sum_prod_type, mul_sum]
    refine sum_congr rfl fun i _ => ?_
    rw [sum_congr rfl fun j _ => show x (i, j) ^ 2 = (a i : ℝ) ^ 2 by
      show ((a i : ℝ) * (if j.val < 2 * v then 1 else -1)) ^ 2 = _
      split <;> ring, sum_const, card_univ, Fintype.card_fin, nsmul_eq_mul]
    push_cast; ring
  · rw [hext (fun k t => t * sgnR (bitsOf w k)) (by simp), Fintype.sum_prod_type]
    push_cast
    rw [mul_sum]
    refine sum_congr rfl fun i _ => ?_
    have he := congrArg (Int.cast : Int → ℝ) (entry_eq h1 h2 i.isLt w)
    push_cast at he
    rw [show (2 : ℝ) * (a i * entry n v w i) = a i * (2 * entry n v w i) by ring, he, mul_sum, Finset.sum_range]
    refine sum_congr rfl fun j _ => ?_
    show _ = (a i : ℝ) * (if j.val < 2 * v then 1 else -1) * ((sgn (streamBit (wordsOf w) (Props.cbdBlock v i + j)) : Int) : ℝ)
    push_cast
    ring

open scoped Classical in
/-- One side of the tail of a combination of the entries of a sampled vector. -/
theorem tail_one {n v W : Nat} (h1 : 1 ≤ v) (h2 : v ≤ 32) (hW : if v ≤ 16 then 4 * v * n ≤ 64 * W else 2 * n ≤ W) (a : Fin n → Int) {S : ℝ} (hS : ∑ i, (a i : ℝ) ^ 2 ≤ S) (hS0 : 0 < S) {T : ℝ} (hT : 0 ≤ T) :
    ((univ.filter fun w : Fin W → Fin (2 ^ 64) => T ≤ ((∑ i : Fin n, a i * entry n v w i : Int) : ℝ)).card : ℝ) ≤ exp (-(T ^ 2 / (2 * v * S))) * 2 ^ (64 * W) := by
  obtain ⟨y, hy, hw⟩ := combination_signs h1 h2 hW a
  have hv : (0 : ℝ) < v := by exact_mod_cast h1
  have := signs_tail y (S := 4 * v * S) (T := 2 * T) (by rw [hy]; exact mul_le_mul_of_nonneg_left hS (by positivity)) (by positivity) (by positivity)
  refine le_trans (le_of_eq ?_) (this.trans (le_of_eq ?_))
  · congr 1
    refine card_equiv (Equiv.ofBijective _ bitsOf_bijective) fun w => ?_
    rw [mem_filter, mem_filter]
    refine and_congr (by simp) ?_
    show _ ↔ 2 * T ≤ ∑ k, y k * sgnR (bitsOf w k)
    rw [← hw w]
    exact ⟨fun h => by linarith, fun h => by linarith⟩
  · rw [Fintype.card_fin, mul_comm]
    congr 2
    field_simp; ring_nf

open scoped Classical in
/-- Both sides of the tail. -/
theorem tail_two {n v W : Nat} (h1 : 1 ≤ v) (h2 : v ≤ 32) (hW : if v ≤ 16 then 4 * v * n ≤ 64 * W else 2 * n ≤ W) (a : Fin n → Int) {S : ℝ} (hS : ∑ i, (a i : ℝ) ^ 2 ≤ S) (hS0 : 0 < S) {T : ℝ} (hT : 0 ≤ T) :
    ((univ.filter fun w : Fin W → Fin (2 ^ 64) => T ≤ |((∑ i : Fin n, a i * entry n v w i : Int) : ℝ)|).card : ℝ) ≤ 2 * exp (-(T ^ 2 / (2 * v * S))) * 2 ^ (64 * W) := by
  have e1 := tail_one h1 h2 hW a hS hS0 hT
  have e2 := tail_one h1 h2 hW (fun i => - a i) (by simpa using hS) hS0 hT
  have : (univ.filter fun w : Fin W → Fin (2 ^ 64) => T ≤ |((∑ i : Fin n, a i * entry n v w i : Int) : ℝ)|) ⊆
      (univ.filter fun w : Fin W → Fin (2 ^ 64) => T ≤ ((∑ i : Fin n, a i * entry n v w i : Int) : ℝ)) ∪
      (univ.filter fun w : Fin W → Fin (2 ^ 64) => T ≤ ((∑ i : Fin n, (- a i) * entry n v w i : Int) : ℝ)) := fun w hw => by
    rw [mem_filter] at hw
    rw [mem_union, mem_filter, mem_filter, sum_congr rfl fun i _ => neg_mul (a i) _, sum_neg_distrib]
    push_cast
    rcases le_abs.1 hw.2 with h | h
    · left; refine ⟨mem_univ _, ?_⟩; push_cast at h; exact h
    · right; refine ⟨mem_univ _, ?_⟩; push_cast at h; exact h
  have h3 := (card_le_card this).trans (card_union_le _ _)
  have h4 := (Nat.cast_le (α := ℝ)).2 h3
  rw [Nat.cast_add] at h4
  linarith

/-- The sampled vector as a polynomial. -/
def sampled (N v : Nat) {W : Nat} (w : Fin W → Fin (2 ^ 64)) : IntPoly N := fun j => entry N v w j

variable {N : Nat}

/-- The coefficients by which the `k`-th coefficient of a product depends on the second factor. -/
def row (F : IntPoly N) (k j : Fin N) : Int := ∑ i : Fin N, if i.val + j.val = k.val then F i else if i.val + j.val = k.val + N then -F i else 0

theorem mul_row (F G : IntPoly N) (k : Fin N) : (F * G) k = ∑ j, row F k j * G j := by
  rw [Nega.mul_apply, sum_comm]
  refine sum_congr rfl fun j _ => ?_
  unfold row
  rw [sum_mul]
  refine sum_congr rfl fun i _ => ?_
  split
  · rfl
  · split
    · ring
    · ring

theorem row_bounded {F : IntPoly N} {A : Nat} (hF : F.Bounded A) (k j : Fin N) : |row F k j| ≤ A := by
  have hone : ∃ i0 : Fin N, ∀ i : Fin N, i ≠ i0 → (if i.val + j.val = k.val then F i else if i.val + j.val = k.val + N then -F i else 0) = 0 := by
    have h1 := j.isLt
    have h2 := k.isLt
    by_cases hik : j.val ≤ k.val
    · refine ⟨⟨k.val - j.val, by omega⟩, fun i hi => ?_⟩
      have : i.val ≠ k.val - j.val := fun e => hi (Fin.ext e)
      have := i.isLt
      rw [if_neg (by omega), if_neg (by omega)]
    · refine ⟨⟨k.val + N - j.val, by omega⟩, fun i hi => ?_⟩
      have : i.val ≠ k.val + N - j.val := fun e => hi (Fin.ext e)
      have := i.isLt
      rw [if_neg (by omega), if_neg (by omega)]
  obtain ⟨i0, hi0⟩ := hone
  unfold row
  rw [sum_eq_single i0 (fun i _ hi => hi0 i hi) (fun h => absurd (mem_univ _) h)]
  split
  · exact hF i0
  · split
    · rw [abs_neg]; exact hF i0
    · rw [abs_zero]; positivity

open scoped Classical in
/-- For a fixed polynomial with coefficients of at most `A`, all but a fraction `2 N exp(-L)` of the streams of words give a sampled polynomial whose product with it
has coefficients of at most `T`, where `T² ≥ 2 v N A² L`. -/
theorem product_tail {v W : Nat} (h1 : 1 ≤ v) (h2 : v ≤ 32) (hW : if v ≤ 16 then 4 * v * N ≤ 64 * W else 2 * N ≤ W) {F : IntPoly N} {A L T : Nat} (hF : F.Bounded A) (hA : 0 < A)
    (hT : 2 * v * N * A ^ 2 * L ≤ T ^ 2) :
    ((univ.filter fun w : Fin W → Fin (2 ^ 64) => ¬ (F * sampled N v w).Bounded T).card : ℝ) ≤ 2 * N * exp (-(L : ℝ)) * 2 ^ (64 * W) := by
  have hsub : (univ.filter fun w : Fin W → Fin (2 ^ 64) => ¬ (F * sampled N v w).Bounded T) ⊆
      univ.biUnion fun k : Fin N => univ.filter fun w : Fin W → Fin (2 ^ 64) => (T : ℝ) ≤ |((∑ j : Fin N, row F k j * entry N v w j : Int) : ℝ)| := fun w hw => by
    rw [mem_filter] at hw
    have := hw.2
    unfold IntPoly.Bounded at this
    push Not at this
    obtain ⟨k, hk⟩ := this
    rw [mem_biUnion]
    refine ⟨k, mem_univ _, mem_filter.2 ⟨mem_univ _, ?_⟩⟩
    rw [mul_row] at hk
    have hk' : (T : Int) ≤ |∑ j : Fin N, row F k j * entry N v w j| := hk.le
    exact_mod_cast hk'
  have hv : (0 : ℝ) < v := by exact_mod_cast h1
  have hA' : (0 : ℝ) < A := by exact_mod_cast hA
  have hk : ∀ k : Fin N, ((univ.filter fun w : Fin W → Fin (2 ^ 64) => (T : ℝ) ≤ |((∑ j : Fin N, row F k j * entry N v w j : Int) : ℝ)|).card : ℝ) ≤ 2 * exp (-(L : ℝ)) * 2 ^ (64 * W) := fun k => by
    have hN : (0 : ℝ) < N := by exact_mod_cast k.pos
    have hS : ∑ j, (row F k j : ℝ) ^ 2 ≤ N * (A : ℝ) ^ 2 := by
      calc _ ≤ ∑ _j : Fin N, (A : ℝ) ^ 2 := sum_le_sum fun j _ => sq_le_sq' (by have := (abs_le.1 (row_bounded hF k j)).1; exact_mod_cast this) (by have := (abs_le.1 (row_bounded hF k j)).2; exact_mod_cast this)
        _ = _ := by rw [sum_const, card_univ, Fintype.card_fin, nsmul_eq_mul]
    have := tail_two h1 h2 hW (row F k) hS (by positivity) (T := T) (by positivity)
    refine this.trans ?_
    have hL : (L : ℝ) ≤ T ^ 2 / (2 * v * (N * A ^ 2)) := by
      rw [le_div_iff₀ (by positivity)]
      have : ((2 * v * N * A ^ 2 * L : Nat) : ℝ) ≤ ((T ^ 2 : Nat) : ℝ) := by exact_mod_cast hT
      push_cast at this
      linarith
    have := exp_le_exp.2 (neg_le_neg hL)
    gcongr
  have h3 := (card_le_card hsub).trans card_biUnion_le
  have h4 : ((univ.filter fun w : Fin W → Fin (2 ^ 64) => ¬ (F * sampled N v w).Bounded T).card : ℝ) ≤ ((∑ k : Fin N, (univ.filter fun w : Fin W → Fin (2 ^ 64) => (T : ℝ) ≤ |((∑ j : Fin N, row F k j * entry N v w j : Int) : ℝ)|).card : Nat) : ℝ) := by
    exact_mod_cast h3
  push_cast at h4
  refine h4.trans ?_
  push_cast at hk
  calc _ ≤ ∑ _k : Fin N, 2 * exp (-(L : ℝ)) * 2 ^ (64 * W) := sum_le_sum fun k _ => hk k
    _ = _ := by rw [sum_const, card_univ, Fintype.card_fin, nsmul_eq_mul]; ring

end Fhe
