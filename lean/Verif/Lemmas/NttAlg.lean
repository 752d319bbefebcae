import Mathlib.Algebra.BigOperators.Intervals
import Mathlib.Algebra.BigOperators.Ring.Finset
import Mathlib.Tactic.Ring
import Verif.Lemmas.NttPass
/-! The algebra of the transform, over an arbitrary commutative ring. -/
namespace Fhe
open Finset

/-! ### Bit reversal -/

theorem revBits_lt (n i : Nat) : revBits n i < 2 ^ n := by
  induction n generalizing i with
  | zero => simp [revBits]
  | succ n ih =>
    have h1 : i % 2 ≤ 1 := by omega
    have h2 : (i % 2) * 2 ^ n ≤ 2 ^ n := by
      calc (i % 2) * 2 ^ n ≤ 1 * 2 ^ n := Nat.mul_le_mul_right _ h1
        _ = _ := Nat.one_mul _
    have := ih (i / 2)
    rw [revBits, pow_succ]
    omega

theorem revBits_zero (n : Nat) : revBits n 0 = 0 := by
  induction n with
  | zero => rfl
  | succ n ih => simp [revBits, ih]

theorem revBits_shift (w c i : Nat) : revBits (w + c) i / 2 ^ c = revBits w i := by
  induction w generalizing i with
  | zero => rw [Nat.zero_add, Nat.div_eq_of_lt (revBits_lt c i)]; rfl
  | succ w ih =>
    rw [show w + 1 + c = (w + c) + 1 by ring, revBits, revBits, ← ih, pow_add, ← Nat.mul_assoc, Nat.mul_comm _ (2 ^ c),
      Nat.mul_add_div (by positivity)]

theorem revBits_two_mul (s i : Nat) : revBits (s + 1) (2 * i) = revBits s i := by
  rw [revBits, Nat.mul_mod_right, Nat.mul_div_cancel_left _ (by norm_num)]; omega
theorem revBits_two_mul_add_one (s i : Nat) : revBits (s + 1) (2 * i + 1) = 2 ^ s + revBits s i := by
  rw [revBits, show (2 * i + 1) % 2 = 1 by omega, show (2 * i + 1) / 2 = i by omega]; omega

theorem revBits_pow_add (s c i : Nat) (hi : i < 2 ^ s) :
    revBits (s + 1 + c) (2 ^ s + i) = 2 ^ c * (1 + 2 * revBits s i) := by
  induction s generalizing i with
  | zero =>
    obtain rfl : i = 0 := by simpa using hi
    rw [Nat.zero_add, Nat.add_comm 1 c]
    simp [revBits, revBits_zero]
  | succ s ih =>
    have hp : 2 ^ (s + 1) = 2 * 2 ^ s := by rw [pow_succ]; ring
    rw [show s + 1 + 1 + c = (s + 1 + c) + 1 by ring, revBits, show (2 ^ (s + 1) + i) % 2 = i % 2 by omega,
      show (2 ^ (s + 1) + i) / 2 = 2 ^ s + i / 2 by omega, ih (i / 2) (by omega), revBits]
    ring

theorem revBits_ones (c : Nat) : revBits c (2 ^ c - 1) + 1 = 2 ^ c := by
  induction c with
  | zero => rfl
  | succ c ih =>
    have h1 : 0 < 2 ^ c := by positivity
    have hp : 2 ^ (c + 1) = 2 * 2 ^ c := by rw [pow_succ]; ring
    rw [revBits, show (2 ^ (c + 1) - 1) % 2 = 1 by omega, show (2 ^ (c + 1) - 1) / 2 = 2 ^ c - 1 by omega]
    omega

theorem revBits_top (s c i : Nat) (hi : i < 2 ^ s) :
    revBits (s + 1 + c) (2 ^ (s + 1 + c) - 2 ^ (s + 1) + i) + 1 = 2 ^ c * (1 + 2 * revBits s i) := by
  induction s generalizing i with
  | zero =>
    obtain rfl : i = 0 := by simpa using hi
    have h1 : 0 < 2 ^ c := by positivity
    have hp : 2 ^ (c + 1) = 2 * 2 ^ c := by rw [pow_succ]; ring
    rw [Nat.zero_add, Nat.add_comm 1 c, show revBits 0 0 = 0 from rfl, revBits, show (2 ^ (c + 1) - 2 ^ 1 + 0) % 2 = 0 by omega,
      show (2 ^ (c + 1) - 2 ^ 1 + 0) / 2 = 2 ^ c - 1 by omega]
    have := revBits_ones c
    omega
  | succ s ih =>
    have e1 : 2 ^ (s + 1) = 2 * 2 ^ s := by rw [pow_succ]; ring
    have e2 : 2 ^ (s + 1 + 1) = 2 * 2 ^ (s + 1) := by rw [pow_succ]; ring
    have e3 : 2 ^ (s + 1 + 1 + c) = 2 * 2 ^ (s + 1 + c) := by
      rw [show s + 1 + 1 + c = s + 1 + c + 1 by ring, pow_succ]; ring
    have e4 : 2 ^ (s + 1) ≤ 2 ^ (s + 1 + c) := Nat.pow_le_pow_right (by norm_num) (by omega)
    have := ih (i / 2) (by omega)
    rw [show s + 1 + 1 + c = (s + 1 + c) + 1 by ring, revBits]
    rw [show s + 1 + c + 1 = s + 1 + 1 + c by ring, show (2 ^ (s + 1 + 1 + c) - 2 ^ (s + 1 + 1) + i) % 2 = i % 2 by omega,
      show (2 ^ (s + 1 + 1 + c) - 2 ^ (s + 1 + 1) + i) / 2 = 2 ^ (s + 1 + c) - 2 ^ (s + 1) + i / 2 by omega, Nat.add_assoc, this, revBits]
    ring

/-! ### Levels -/

variable {R : Type} [CommRing R]

/-- Forward butterfly. -/
def fwdG (w : Nat → R) (k : Nat) (x y : R) : R × R := (x + w k * y, x - w k * y)
/-- Backward butterfly. -/
def bwdG (z : Nat → R) (k : Nat) (x y : R) : R × R := (x + y, (x - y) * z k)

theorem levelFn_congr {S : Type} {g : Nat → S → S → S × S} {l k M : Nat} {f f' : Nat → S} (h : ∀ x < 2 * l * M, f x = f' x) :
    ∀ x < 2 * l * M, levelFn g l k f x = levelFn g l k f' x := by
  intro x hx
  have hb : ∀ i j, i < M → j < l → 2 * l * i + j + l < 2 * l * M := fun i j hi hj =>
    calc 2 * l * i + j + l < 2 * l * i + 2 * l := by omega
      _ = 2 * l * (i + 1) := by ring
      _ ≤ _ := Nat.mul_le_mul_left _ hi
  rcases index_split hx with ⟨i, j, hi, hj, rfl⟩ | ⟨i, j, hi, hj, rfl⟩
  · have := hb i j hi hj
    rw [levelFn_left _ _ hj, levelFn_left _ _ hj, h _ (by omega), h _ (by omega)]
  · have := hb i j hi hj
    rw [levelFn_right _ _ hj, levelFn_right _ _ hj, h _ (by omega), h _ (by omega)]

theorem levelFn_fwd_smul (w : Nat → R) (l k : Nat) (c : R) (f : Nat → R) (x : Nat) :
    levelFn (fwdG w) l k (fun x => c * f x) x = c * levelFn (fwdG w) l k f x := by
  unfold levelFn fwdG; split <;> ring
theorem levelFn_bwd_smul (w : Nat → R) (l k : Nat) (c : R) (f : Nat → R) (x : Nat) :
    levelFn (bwdG w) l k (fun x => c * f x) x = c * levelFn (bwdG w) l k f x := by
  unfold levelFn bwdG; split <;> ring

theorem bwd_fwd_level {w z : Nat → R} {l kf kb M : Nat} (h : ∀ i < M, z (kb + i) * w (kf + i) = 1) (f : Nat → R) :
    ∀ x < 2 * l * M, levelFn (bwdG z) l kb (levelFn (fwdG w) l kf f) x = 2 * f x := by
  intro x hx
  rcases index_split hx with ⟨i, j, hi, hj, rfl⟩ | ⟨i, j, hi, hj, rfl⟩
  · rw [levelFn_left _ _ hj, levelFn_left _ _ hj, levelFn_right _ _ hj]
    simp only [bwdG, fwdG]; ring
  · rw [levelFn_right _ _ hj, levelFn_left _ _ hj, levelFn_right _ _ hj]
    simp only [bwdG, fwdG]
    linear_combination 2 * f (2 * l * i + j + l) * h i hi

theorem fwd_bwd_level {w z : Nat → R} {l kf kb M : Nat} (h : ∀ i < M, z (kb + i) * w (kf + i) = 1) (f : Nat → R) :
    ∀ x < 2 * l * M, levelFn (fwdG w) l kf (levelFn (bwdG z) l kb f) x = 2 * f x := by
  intro x hx
  rcases index_split hx with ⟨i, j, hi, hj, rfl⟩ | ⟨i, j, hi, hj, rfl⟩
  · rw [levelFn_left _ _ hj, levelFn_left _ _ hj, levelFn_right _ _ hj]
    simp only [bwdG, fwdG]
    linear_combination (f (2 * l * i + j) - f (2 * l * i + j + l)) * h i hi
  · rw [levelFn_right _ _ hj, levelFn_left _ _ hj, levelFn_right _ _ hj]
    simp only [bwdG, fwdG]
    linear_combination -(f (2 * l * i + j) - f (2 * l * i + j + l)) * h i hi

/-! ### The forward transform -/

theorem sum_range_two_mul (m : Nat) (f : Nat → R) : ∑ u ∈ range (2 * m), f u = ∑ t ∈ range m, (f (2 * t) + f (2 * t + 1)) := by
  induction m with
  | zero => simp
  | succ m ih =>
    rw [show 2 * (m + 1) = 2 * m + 1 + 1 by ring, sum_range_succ, sum_range_succ, ih, sum_range_succ, add_assoc]

/-- The array after `s` levels: chunk `i` of length `L = 2^(n-s)` holds the input polynomial reduced modulo
`X^L - ω^(L (1 + 2 rev_s(i)))`. -/
def evalState (n : Nat) (ω : R) (a : Nat → R) (s x : Nat) : R :=
  ∑ t ∈ range (2 ^ s), a (x % 2 ^ (n - s) + t * 2 ^ (n - s)) *
    ω ^ (2 ^ (n - s) * (1 + 2 * revBits s (x / 2 ^ (n - s))) * t)

theorem evalState_zero (n : Nat) (ω : R) (a : Nat → R) {x : Nat} (hx : x < 2 ^ n) : evalState n ω a 0 x = a x := by
  simp [evalState, Nat.mod_eq_of_lt hx]

theorem evalState_end (n : Nat) (ω : R) (a : Nat → R) (x : Nat) :
    evalState n ω a n x = ∑ t ∈ range (2 ^ n), a t * ω ^ ((2 * revBits n x + 1) * t) := by
  unfold evalState
  simp only [Nat.sub_self, pow_zero, Nat.mod_one, Nat.zero_add, Nat.mul_one, Nat.one_mul, Nat.div_one, Nat.add_comm 1]

theorem evalState_step {n s : Nat} (hs : s < n) {ω : R} (hω : ω ^ 2 ^ n = -1) (a : Nat → R) {x : Nat} (hx : x < 2 ^ n) :
    levelFn (fwdG fun k => ω ^ revBits n k) (2 ^ (n - s - 1)) (2 ^ s) (evalState n ω a s) x = evalState n ω a (s + 1) x := by
  obtain ⟨c, rfl⟩ : ∃ c, n = s + 1 + c := ⟨n - s - 1, by omega⟩
  have hc : s + 1 + c - s - 1 = c := by omega
  have hL : s + 1 + c - s = c + 1 := by omega
  have hl' : s + 1 + c - (s + 1) = c := by omega
  rw [hc]
  set l := 2 ^ c with hl
  have hlpos : 0 < l := by positivity
  have hL2 : 2 ^ (c + 1) = 2 * l := by rw [pow_succ, hl]; ring
  have hN : 2 ^ (s + 1 + c) = 2 * l * 2 ^ s := by rw [hl]; ring
  have hdm : ∀ i j, j < 2 * l → (2 * l * i + j) % (2 * l) = j ∧ (2 * l * i + j) / (2 * l) = i := fun i j hj =>
    ⟨by rw [Nat.mul_add_mod, Nat.mod_eq_of_lt hj], by rw [Nat.mul_add_div (by omega), Nat.div_eq_of_lt hj, Nat.add_zero]⟩
  have hdm' : ∀ i j, j < l → (l * i + j) % l = j ∧ (l * i + j) / l = i := fun i j hj =>
    ⟨by rw [Nat.mul_add_mod, Nat.mod_eq_of_lt hj], by rw [Nat.mul_add_div hlpos, Nat.div_eq_of_lt hj, Nat.add_zero]⟩
  have hst : ∀ i j, j < 2 * l → evalState (s + 1 + c) ω a s (2 * l * i + j) =
      ∑ t ∈ range (2 ^ s), a (j + t * (2 * l)) * ω ^ (2 * l * (1 + 2 * revBits s i) * t) := by
    intro i j hj
    unfold evalState
    rw [hL, hL2, (hdm i j hj).1, (hdm i j hj).2]
  rw [hN] at hx
  have hpow2 : 2 ^ (s + 1) = 2 * 2 ^ s := by rw [pow_succ]; ring
  rcases index_split hx with ⟨i, j, hi, hj, rfl⟩ | ⟨i, j, hi, hj, rfl⟩
  · rw [levelFn_left _ _ hj]
    simp only [fwdG]
    rw [Nat.add_assoc (2 * l * i) j l, hst i j (by omega), hst i (j + l) (by omega), revBits_pow_add s c i hi, ← hl]
    unfold evalState
    rw [hl', ← hl, show 2 * l * i + j = l * (2 * i) + j by ring, (hdm' _ _ hj).1, (hdm' _ _ hj).2, revBits_two_mul, hpow2,
      sum_range_two_mul, mul_sum, ← sum_add_distrib]
    refine sum_congr rfl fun t _ => ?_
    rw [show j + 2 * t * l = j + t * (2 * l) by ring, show j + (2 * t + 1) * l = j + l + t * (2 * l) by ring]
    generalize 1 + 2 * revBits s i = E
    rw [show l * E * (2 * t) = 2 * l * E * t by ring, show l * E * (2 * t + 1) = l * E + 2 * l * E * t by ring, pow_add]
    ring
  · rw [levelFn_right _ _ hj]
    simp only [fwdG]
    rw [Nat.add_assoc (2 * l * i) j l, hst i j (by omega), hst i (j + l) (by omega), revBits_pow_add s c i hi, ← hl]
    unfold evalState
    rw [hl', ← hl, show 2 * l * i + (j + l) = l * (2 * i + 1) + j by ring, (hdm' _ _ hj).1, (hdm' _ _ hj).2,
      revBits_two_mul_add_one, hpow2, sum_range_two_mul, mul_sum, ← sum_sub_distrib]
    refine sum_congr rfl fun t _ => ?_
    rw [show j + 2 * t * l = j + t * (2 * l) by ring, show j + (2 * t + 1) * l = j + l + t * (2 * l) by ring]
    have hE : l * (1 + 2 * (2 ^ s + revBits s i)) = l * (1 + 2 * revBits s i) + 2 ^ (s + 1 + c) := by rw [hN]; ring
    rw [hE]
    generalize 1 + 2 * revBits s i = E
    have p1 : ω ^ ((l * E + 2 ^ (s + 1 + c)) * (2 * t)) = ω ^ (2 * l * E * t) := by
      rw [show (l * E + 2 ^ (s + 1 + c)) * (2 * t) = 2 * l * E * t + 2 ^ (s + 1 + c) * (2 * t) by ring, pow_add, pow_mul ω (2 ^ (s + 1 + c)),
        hω, pow_mul (-1 : R), neg_one_sq, one_pow, mul_one]
    have p2 : ω ^ ((l * E + 2 ^ (s + 1 + c)) * (2 * t + 1)) = -(ω ^ (l * E) * ω ^ (2 * l * E * t)) := by
      rw [show (l * E + 2 ^ (s + 1 + c)) * (2 * t + 1) = (l * E + 2 * l * E * t) + 2 ^ (s + 1 + c) * (2 * t + 1) by ring, pow_add,
        pow_mul ω (2 ^ (s + 1 + c)), hω, pow_succ, pow_mul (-1 : R), neg_one_sq, one_pow, pow_add]
      ring
    rw [p1, p2]
    ring

/-! ### The backward transform -/

/-- The array after `d` backward levels (`l = 1, 2, ..., 2^(d-1)`), without the final scaling. -/
def bwdState (n : Nat) (z : Nat → R) (b : Nat → R) : Nat → Nat → R
  | 0 => b
  | d + 1 => levelFn (bwdG z) (2 ^ d) (2 ^ n - 2 ^ (n - d)) (bwdState n z b d)

/-- The twiddles of matching levels are inverse to each other. -/
theorem twiddle_inv {n d : Nat} (hd : d < n) {ω ωi : R} (hi : ωi * ω = 1) :
    ∀ i < 2 ^ (n - d - 1), ωi ^ (revBits n (2 ^ n - 2 ^ (n - d) + i) + 1) * ω ^ revBits n (2 ^ (n - d - 1) + i) = 1 := by
  intro i hi'
  obtain ⟨s, rfl⟩ : ∃ s, n = s + 1 + d := ⟨n - d - 1, by omega⟩
  have e : s + 1 + d - d - 1 = s := by omega
  have e2 : s + 1 + d - d = s + 1 := by omega
  rw [e] at hi' ⊢
  rw [e2, revBits_top s d i hi', revBits_pow_add s d i hi', ← mul_pow, hi, one_pow]

theorem bwdState_evalState {n : Nat} {ω ωi : R} (hω : ω ^ 2 ^ n = -1) (hi : ωi * ω = 1) (a : Nat → R) (d : Nat) (hd : d ≤ n) :
    ∀ x < 2 ^ n, bwdState n (fun k => ωi ^ (revBits n k + 1)) (evalState n ω a n) d x = 2 ^ d * evalState n ω a (n - d) x := by
  induction d with
  | zero => intro x _; simp [bwdState]
  | succ d ih =>
    intro x hx
    have ih := ih (by omega)
    have hN : 2 ^ n = 2 * 2 ^ d * 2 ^ (n - d - 1) := by
      rw [← pow_succ', ← pow_add]; congr 1; omega
    rw [hN] at ih hx
    rw [bwdState, levelFn_congr ih x hx, levelFn_bwd_smul]
    have hstep : ∀ y < 2 * 2 ^ d * 2 ^ (n - d - 1), evalState n ω a (n - d) y =
        levelFn (fwdG fun k => ω ^ revBits n k) (2 ^ d) (2 ^ (n - d - 1)) (evalState n ω a (n - (d + 1))) y := by
      intro y hy
      rw [← hN] at hy
      have := evalState_step (s := n - (d + 1)) (by omega) hω a hy
      rw [show n - (n - (d + 1)) - 1 = d by omega, show n - (d + 1) + 1 = n - d by omega] at this
      rw [← this, show n - (d + 1) = n - d - 1 by omega]
    rw [levelFn_congr hstep x hx, bwd_fwd_level (twiddle_inv (by omega) hi) _ x hx, pow_succ]
    ring

theorem evalState_bwdState {n : Nat} {ω ωi : R} (hω : ω ^ 2 ^ n = -1) (hi : ωi * ω = 1) (b : Nat → R) (s : Nat) (hs : s ≤ n) :
    ∀ x < 2 ^ n, evalState n ω (bwdState n (fun k => ωi ^ (revBits n k + 1)) b n) s x =
      2 ^ s * bwdState n (fun k => ωi ^ (revBits n k + 1)) b (n - s) x := by
  induction s with
  | zero => intro x hx; rw [evalState_zero _ _ _ hx]; simp
  | succ s ih =>
    intro x hx
    have ih := ih (by omega)
    have hN : 2 ^ n = 2 * 2 ^ (n - s - 1) * 2 ^ s := by
      rw [← pow_succ', ← pow_add]; congr 1; omega
    rw [← evalState_step (by omega) hω _ hx]
    rw [hN] at ih hx
    rw [levelFn_congr ih x hx, levelFn_fwd_smul]
    have hb : bwdState n (fun k => ωi ^ (revBits n k + 1)) b (n - s) =
        levelFn (bwdG fun k => ωi ^ (revBits n k + 1)) (2 ^ (n - s - 1)) (2 ^ n - 2 ^ (n - (n - s - 1)))
          (bwdState n (fun k => ωi ^ (revBits n k + 1)) b (n - (s + 1))) := by
      rw [show n - s = (n - s - 1) + 1 by omega, bwdState, show n - s - 1 + 1 - 1 = n - s - 1 by omega, show n - (s + 1) = n - s - 1 by omega]
    have ht := twiddle_inv (n := n) (d := n - s - 1) (by omega) hi
    rw [show n - (n - s - 1) - 1 = s by omega] at ht
    rw [hb, fwd_bwd_level ht _ x hx, pow_succ]
    ring

end Fhe
