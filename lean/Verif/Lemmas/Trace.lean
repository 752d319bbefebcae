import Verif.Lemmas.BfvEvalKey
/-!
# The inner sum of a polynomial is its trace

Lemmas: composing `1 + σ` for the rotations of the inner sum maps a message to the constant `N m₀`.
-/
namespace Fhe
open Nega

variable {N : Nat} {R : Type*} [CommRing R]

theorem Nega.subst_congr {d e e' : Nat} (f : Nega N R) (hf : ∀ p, ¬ d ∣ p.val → f p = 0) (h : e * d ≡ e' * d [MOD 2 * N]) : subst e f = subst e' f := by
  rw [subst_eq, subst_eq]
  unfold evalFn
  refine Finset.sum_congr rfl fun p _ => ?_
  by_cases hp : d ∣ p.val
  · obtain ⟨q, hq⟩ := hp
    rw [mono_pow, mono_pow, hq, ← mul_assoc, ← mul_assoc, ← mono_mod, ← mono_mod (e' * d * q)]
    congr 1
    congr 1
    exact h.mul_right q
  · rw [hf p hp, map_zero, zero_mul, zero_mul]

theorem Nega.subst_add' {e : Nat} (he : e % 2 = 1) (f g : Nega N R) : subst e (f + g) = subst e f + subst e g := by
  rw [← substHom_apply e he, map_add]; rfl

/-- `1 + σ_e`. -/
def Nega.orbit (f : Nega N R) (e : Nat) : Nega N R := f + subst e f

theorem Nega.orbit_comm (f : Nega N R) {e e' : Nat} (he : e % 2 = 1) (he' : e' % 2 = 1) : orbit (orbit f e) e' = orbit (orbit f e') e := by
  unfold orbit
  rw [subst_add' he', subst_add' he, subst_subst he' he, subst_subst he he', mul_comm e e']; abel

theorem odd_three_pow (k : Nat) : 3 ^ k % 2 = 1 := by rw [Nat.pow_mod]; norm_num

/-- `3^(2^k) = 1 + 2^(k+2)` modulo `2^(k+3)`, for positive `k`. -/
theorem three_pow_two_pow (k : Nat) : ∃ q, 3 ^ 2 ^ (k + 1) = 1 + 2 ^ (k + 3) + q * 2 ^ (k + 4) := by
  induction k with
  | zero => exact ⟨0, by norm_num⟩
  | succ k ih =>
    obtain ⟨q, hq⟩ := ih
    refine ⟨q * (1 + 2 ^ (k + 3)) + 2 ^ (k + 1) + q * q * 2 ^ (k + 3), ?_⟩
    rw [pow_succ 2 (k + 1), pow_mul, hq]
    simp only [pow_succ]; ring

theorem supported_expand {t l : Nat} (m : Nega N (ZMod t)) : ∀ p, ¬ 2 ^ l ∣ p.val → expandMsg l 0 m p = 0 := fun p hp => by
  unfold expandMsg; rw [dif_neg (fun h => hp h.1)]

theorem foldl_high {t a : Nat} (hN : N = 2 ^ (a + 3)) (m : Nega N (ZMod t)) {l : Nat} (hl : l ≤ a + 1) :
    (List.range l).foldl (fun x c => orbit x (3 ^ 2 ^ (a + 1 - c))) m = expandMsg l 0 m := by
  induction l with
  | zero => rw [expandMsg_zero]; rfl
  | succ l ih =>
    rw [List.range_succ, List.foldl_append, ih (by omega)]
    simp only [List.foldl_cons, List.foldl_nil]
    have hd : 2 ^ (l + 1) ∣ N := by rw [hN]; exact pow_dvd_pow 2 (by omega)
    rw [← expandMsg_low hd]
    unfold orbit
    congr 1
    refine subst_congr _ (supported_expand m) ?_
    obtain ⟨c, hc⟩ : ∃ c, a = l + c := ⟨a - l, by omega⟩
    obtain ⟨q, hq⟩ := three_pow_two_pow c
    have e1 : N / 2 ^ l = 2 ^ (c + 3) := by
      rw [hN, hc, show l + c + 3 = l + (c + 3) by omega, pow_add, Nat.mul_div_cancel_left _ (by positivity)]
    have e2 : 2 * N = 2 ^ (c + 4) * 2 ^ l := by rw [hN, hc, ← pow_add, ← pow_succ']; congr 1; omega
    rw [e1, show a + 1 - l = c + 1 by omega, hq, e2]
    refine Nat.ModEq.mul_right' _ ?_
    rw [show 1 + 2 ^ (c + 3) + q * 2 ^ (c + 4) = 2 ^ (c + 3) + 1 + q * 2 ^ (c + 4) by ring]
    exact Nat.add_mul_modulus_modEq_iff.2 rfl

theorem foldl_orbit_perm {f : Nega N R} {l l' : List Nat} (h : l.Perm l') (ho : ∀ x ∈ l, x % 2 = 1) : l.foldl orbit f = l'.foldl orbit f := by
  induction h generalizing f with
  | nil => rfl
  | cons x _ ih => exact ih fun y hy => ho y (List.mem_cons_of_mem _ hy)
  | swap x y l =>
    simp only [List.foldl_cons]
    rw [orbit_comm f (ho _ (by simp)) (ho _ (by simp))]
  | trans h1 _ ih1 ih2 => rw [ih1 ho, ih2 fun x hx => ho x (h1.mem_iff.2 hx)]

theorem expandMsg_full {t n : Nat} (hN : N = 2 ^ n) (m : Nega N (ZMod t)) : expandMsg n 0 m = C ((N : ZMod t) * coeff m 0) := Nega.ext fun p => by
  have hp := p.isLt
  rw [C_apply]
  unfold expandMsg
  by_cases h : p.val = 0
  · rw [dif_pos ⟨by simp [h], by omega⟩, if_pos h]
    have hc : ((N : Nat) : ZMod t) = 2 ^ n := by rw [show ((N : Nat) : ZMod t) = ((2 ^ n : Nat) : ZMod t) by rw [← hN]]; push_cast; rfl
    rw [coeff_of_lt m (by omega : 0 < N), hc]
    congr 2
    exact Fin.ext (by simpa using h)
  · rw [if_neg h, dif_neg]
    rintro ⟨h1, -⟩
    have := Nat.le_of_dvd (by omega) h1
    omega

/-- The composition of the rotations of the inner sum is the trace. -/
theorem trace_eq {t n : Nat} (hn : 3 ≤ n) (hN : N = 2 ^ n) (m : Nega N (ZMod t)) :
    let x := ((List.range (n - 1)).map (2 ^ ·)).foldl (fun x t => x + Nega.subst (3 ^ t) x) m
    x + Nega.subst (2 * N - 1) x = C ((N : ZMod t) * coeff m 0) := by
  obtain ⟨a, rfl⟩ : ∃ a, n = a + 3 := ⟨n - 3, by omega⟩
  intro x
  have hpos : 0 < N := by rw [hN]; positivity
  have hx : x = orbit (expandMsg (a + 1) 0 m) 3 := by
    have h1 : x = ((List.range (a + 2)).map fun c => 3 ^ 2 ^ c).foldl orbit m := by
      show List.foldl _ _ _ = _
      rw [List.foldl_map, List.foldl_map]; rfl
    have hperm : ((List.range (a + 2)).map fun c => 3 ^ 2 ^ c).Perm ((List.range (a + 1)).map (fun c => 3 ^ 2 ^ (a + 1 - c)) ++ [3]) := by
      have h2 : (List.range (a + 2)).map (fun c => 3 ^ 2 ^ c) = 3 :: (List.range (a + 1)).map fun c => 3 ^ 2 ^ (c + 1) := by
        rw [List.range_succ_eq_map, List.map_cons, List.map_map]; rfl
      have h3 : (List.range (a + 1)).map (fun c => 3 ^ 2 ^ (a + 1 - c)) = ((List.range (a + 1)).map fun c => 3 ^ 2 ^ (c + 1)).reverse := by
        rw [← List.map_reverse, List.range_eq_range', List.reverse_range', ← List.range_eq_range', List.map_map]
        refine List.map_congr_left fun c hc => ?_
        rw [List.mem_range] at hc
        show _ = 3 ^ 2 ^ (0 + (a + 1) - 1 - c + 1)
        congr 2
        omega
      rw [h2, h3]
      exact (List.Perm.cons _ (List.reverse_perm _).symm).trans (List.perm_append_comm (l₁ := [3]))
    rw [h1, foldl_orbit_perm hperm fun y hy => by obtain ⟨c, -, rfl⟩ := List.mem_map.1 hy; exact odd_three_pow _, List.foldl_append, List.foldl_map, foldl_high hN m le_rfl]
    rfl
  have hs := supported_expand (l := a + 1) m
  have hd1 : 2 ^ (a + 1 + 1) ∣ N := by rw [hN]; exact pow_dvd_pow 2 (by omega)
  have hd2 : 2 ^ (a + 1 + 1 + 1) ∣ N := by rw [hN]
  have e1 : N / 2 ^ (a + 1) = 4 := by rw [hN, show a + 3 = a + 1 + 2 by omega, pow_add, Nat.mul_div_cancel_left _ (by positivity)]; norm_num
  have e2 : N / 2 ^ (a + 1 + 1) = 2 := by rw [hN, show a + 3 = a + 1 + 1 + 1 by omega, pow_succ, Nat.mul_div_cancel_left _ (by positivity)]
  have low1 := expandMsg_low (j := 0) hd1 m
  have low2 := expandMsg_low (j := 0) hd2 m
  rw [e1] at low1
  rw [e2, ← low1] at low2
  rw [← expandMsg_full hN m, ← low2, hx]
  have h8 : ∀ {e e' : Nat}, e ≡ e' [MOD 8] → subst e (expandMsg (a + 1) 0 m) = subst e' (expandMsg (a + 1) 0 m) := fun h => by
    refine subst_congr _ hs ?_
    have : 2 * N = 8 * 2 ^ (a + 1) := by rw [hN]; simp only [pow_succ]; ring
    rw [this]
    exact h.mul_right' _
  have hodd : (2 * N - 1) % 2 = 1 := by omega
  have hmod : 2 * N % 8 = 0 := by rw [hN, show 2 * 2 ^ (a + 3) = 8 * 2 ^ (a + 1) by simp only [pow_succ]; ring]; exact Nat.mul_mod_right _ _
  unfold orbit
  rw [subst_add' hodd, subst_add' (by norm_num), subst_subst hodd (by norm_num), subst_subst (by norm_num) (by norm_num),
    h8 (show (2 * N - 1) * 3 ≡ 5 [MOD 8] by unfold Nat.ModEq; omega), h8 (show 2 * N - 1 ≡ (2 + 1) * (4 + 1) [MOD 8] by unfold Nat.ModEq; omega)]
  abel

end Fhe
