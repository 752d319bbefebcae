import Mathlib.FieldTheory.Finite.Basic
import Mathlib.Tactic.Ring
import Mathlib.Tactic.Linarith
import Verif.Model.Zq
/-! Lemmas about the `zq` model: every checked function returns `some` of the mathematical value. -/
namespace Fhe

theorem bitLen_le_iff {a n : Nat} : bitLen a ≤ n ↔ a < 2 ^ n := by
  unfold bitLen
  split
  · rename_i h; subst h; simp
  · rename_i h
    rw [← Nat.log2_lt h]; omega

theorem lt_two_pow_bitLen (a : Nat) : a < 2 ^ bitLen a := bitLen_le_iff.1 (Nat.le_refl _)

theorem two_pow_le_of_bitLen {a n : Nat} (h : bitLen a = n + 1) : 2 ^ n ≤ a := by
  by_contra hc
  have : bitLen a ≤ n := bitLen_le_iff.2 (by omega)
  omega

theorem bitLen_pos {a : Nat} (h : 0 < a) : 0 < bitLen a := by
  unfold bitLen; rw [if_neg (by omega)]; omega

theorem condSelect_eq {t f : Nat} (ht : t < 2 ^ 64) (hf : f < 2 ^ 64) (c : Bool) :
    condSelect t f c = if c then t else f := by
  unfold condSelect
  cases c
  · simp
  · simp only [if_true]
    rw [Nat.and_two_pow_sub_one_eq_mod, Nat.mod_eq_of_lt (Nat.xor_lt_two_pow ht hf), Nat.xor_assoc, Nat.xor_self,
      Nat.xor_zero]

theorem mod_two_mul {x p : Nat} (h : x < 2 * p) : x % p = if x < p then x else x - p := by
  split
  · exact Nat.mod_eq_of_lt ‹_›
  · rw [Nat.mod_eq_sub_mod (by omega), Nat.mod_eq_of_lt (by omega)]

namespace Modulus

theorem reduce1_eq {x p : Nat} (hp : p < 2 ^ 63) (h : x < 2 * p) : reduce1 x p = some (x % p) := by
  unfold reduce1
  have h1 : p >>> 63 = 0 := by rw [Nat.shiftRight_eq_div_pow]; exact Nat.div_eq_of_lt hp
  have h2 : 2 * p < 2 ^ 64 := by omega
  have h3 : condSelect x (wsub64 x p) (decide (x < p)) = x % p := by
    rw [condSelect_eq (by omega) (show wsub64 x p < 2 ^ 64 from Nat.mod_lt _ (by norm_num)), mod_two_mul h]
    unfold wsub64
    by_cases hx : x < p
    · simp [hx]
    · simp only [hx, decide_false, if_false]
      have : x + 2 ^ 64 - p = (x - p) + 2 ^ 64 := by omega
      simp only [Bool.false_eq_true, if_false]
      rw [this, Nat.add_mod_right, Nat.mod_eq_of_lt (by omega)]
  simp only [check_eq h1, mul64_eq h2, check_eq h, h3, check_eq, Option.bind_eq_bind, Option.bind_some]
  rfl

theorem reduce1Vt_eq {c : Bool} {x p : Nat} (hp : p < 2 ^ 63) (h : x < 2 * p) :
    reduce1Vt c x p = some (x % p) := by
  unfold reduce1Vt
  cases c
  · simpa using reduce1_eq hp h
  · have h1 : p >>> 63 = 0 := by rw [Nat.shiftRight_eq_div_pow]; exact Nat.div_eq_of_lt hp
    have h2 : 2 * p < 2 ^ 64 := by omega
    simp only [if_true, check_eq h1, mul64_eq h2, check_eq h, Option.bind_eq_bind, Option.bind_some, mod_two_mul h]
    by_cases hx : x < p
    · rw [if_neg (by omega), if_pos hx]; rfl
    · rw [if_pos (by omega), if_neg hx, subU_eq (by omega)]

end Modulus

/-- Barrett quotient estimate. -/
theorem barrett_quot {K p a : Nat} (hp : 0 < p) (ha : a < K) :
    a * (K / p) / K * p ≤ a ∧ a < (a * (K / p) / K + 2) * p := by
  have hK : 0 < K := by omega
  set B := K / p with hB
  set q := a * B / K with hq
  have h1 : B * p ≤ K := Nat.div_mul_le_self K p
  have h2 : K < (B + 1) * p := by rw [mul_comm]; exact Nat.lt_mul_div_succ K hp
  have h3 : q * K ≤ a * B := Nat.div_mul_le_self _ _
  have h4 : a * B < (q + 1) * K := by rw [mul_comm (q + 1)]; exact Nat.lt_mul_div_succ _ hK
  constructor
  · apply Nat.le_of_mul_le_mul_right (c := K) _ hK
    calc q * p * K = q * K * p := by ring
      _ ≤ a * B * p := Nat.mul_le_mul_right _ h3
      _ = a * (B * p) := by ring
      _ ≤ a * K := Nat.mul_le_mul_left _ h1
  · apply Nat.lt_of_mul_lt_mul_right (a := K)
    calc a * K ≤ a * ((B + 1) * p) := Nat.mul_le_mul_left _ h2.le
      _ = a * B * p + a * p := by ring
      _ < (q + 1) * K * p + K * p := by
        have := Nat.mul_lt_mul_of_pos_right h4 hp
        have := Nat.mul_le_mul_right p ha.le
        omega
      _ = (q + 2) * p * K := by ring

theorem barrett_hi_add_lo {p : Nat} (hp : 2 ≤ p) :
    2 ^ 128 / p / 2 ^ 64 + 2 ^ 128 / p % 2 ^ 64 < 2 ^ 64 := by
  set hi := 2 ^ 128 / p / 2 ^ 64 with hhi
  set lo := 2 ^ 128 / p % 2 ^ 64 with hlo
  have hB : 2 ^ 64 * hi + lo = 2 ^ 128 / p := Nat.div_add_mod _ _
  have h1 : (2 ^ 128 / p) * p ≤ 2 ^ 128 := Nat.div_mul_le_self _ _
  have hhi' : hi = 2 ^ 64 / p := by
    rw [hhi, Nat.div_div_eq_div_mul, Nat.mul_comm, ← Nat.div_div_eq_div_mul]
    norm_num
  have h2 : p * hi + 2 ^ 64 % p = 2 ^ 64 := by rw [hhi']; exact Nat.div_add_mod _ _
  have h3 : 2 ^ 64 % p < p := Nat.mod_lt _ (by omega)
  rw [← hB] at h1
  have h4 : p * (hi + lo) < p * 2 ^ 64 := by
    have e1 : (2 ^ 64 * hi + lo) * p = 2 ^ 64 * (p * hi) + p * lo := by ring
    have e2 : p * (hi + lo) = p * hi + p * lo := by ring
    rw [e1] at h1; rw [e2]
    generalize p * hi = x at *
    generalize p * lo = y at *
    omega
  exact Nat.lt_of_mul_lt_mul_left h4

theorem div_two_pow_split (aHi aLo hi lo W : Nat) (hW : 0 < W) :
    (aHi * W + aLo) * (W * hi + lo) / (W * W) = (aLo * hi + aHi * lo + aLo * lo / W) / W + aHi * hi := by
  rw [← Nat.div_div_eq_div_mul]
  have e : (aHi * W + aLo) * (W * hi + lo) = aLo * lo + W * (aHi * hi * W + aLo * hi + aHi * lo) := by ring
  rw [e, Nat.add_mul_div_left _ _ hW]
  have e2 : aLo * lo / W + (aHi * hi * W + aLo * hi + aHi * lo)
      = (aLo * hi + aHi * lo + aLo * lo / W) + W * (aHi * hi) := by ring
  rw [e2, Nat.add_mul_div_left _ _ hW]

namespace Modulus

variable {m : Modulus}

theorem WF.lt63 (h : m.WF) : m.p < 2 ^ 63 := lt_trans h.lt (by norm_num)
theorem WF.pos (h : m.WF) : 0 < m.p := lt_of_lt_of_le (by norm_num) h.two_le

theorem WF.barrett (h : m.WF) : 2 ^ 64 * m.barrettHi + m.barrettLo = 2 ^ 128 / m.p := by
  rw [h.hi, h.lo]; exact Nat.div_add_mod _ _
theorem WF.hilo (h : m.WF) : m.barrettHi + m.barrettLo < 2 ^ 64 := by
  rw [h.hi, h.lo]; exact barrett_hi_add_lo h.two_le

theorem quot_finish {m : Modulus} (hm : m.WF) {a q : Nat} (h1 : q * m.p ≤ a) (h2 : a < (q + 2) * m.p) :
    asU64 (a - q * m.p) = a - q * m.p ∧ a - q * m.p < 2 * m.p ∧ (a - q * m.p) % m.p = a % m.p := by
  have h3 : (q + 2) * m.p = q * m.p + 2 * m.p := by ring
  have := hm.lt
  refine ⟨Nat.mod_eq_of_lt (by omega), by omega, ?_⟩
  rw [Nat.mul_comm] at h1 ⊢
  exact Nat.sub_mul_mod h1

theorem lazyReduceU128_eq (hm : m.WF) {a : Nat} (ha : a < 2 ^ 128) :
    ∃ r, m.lazyReduceU128 a = some r ∧ r < 2 * m.p ∧ r % m.p = a % m.p := by
  obtain ⟨q1, q2⟩ := barrett_quot (K := 2 ^ 128) hm.pos ha
  set q := a * (2 ^ 128 / m.p) / 2 ^ 128 with hq
  have hlo : a % 2 ^ 64 < 2 ^ 64 := Nat.mod_lt _ (by norm_num)
  have hhi : a / 2 ^ 64 < 2 ^ 64 := by omega
  have hsum := hm.hilo
  have hsplit : q = ((a % 2 ^ 64) * m.barrettHi + (a / 2 ^ 64) * m.barrettLo + (a % 2 ^ 64) * m.barrettLo / 2 ^ 64)
      / 2 ^ 64 + (a / 2 ^ 64) * m.barrettHi := by
    rw [← div_two_pow_split _ _ _ _ _ (by norm_num), hm.barrett, Nat.div_add_mod', hq, ← pow_add]
  have b1 : (a % 2 ^ 64) * m.barrettLo ≤ (2 ^ 64 - 1) * m.barrettLo := Nat.mul_le_mul_right _ (by omega)
  have b2 : (a / 2 ^ 64) * m.barrettLo ≤ (2 ^ 64 - 1) * m.barrettLo := Nat.mul_le_mul_right _ (by omega)
  have b3 : (a % 2 ^ 64) * m.barrettHi ≤ (2 ^ 64 - 1) * m.barrettHi := Nat.mul_le_mul_right _ (by omega)
  have b4 : (a / 2 ^ 64) * m.barrettHi ≤ (2 ^ 64 - 1) * m.barrettHi := Nat.mul_le_mul_right _ (by omega)
  have hqa : q * m.p < 2 ^ 128 := by omega
  have hq128 : q < 2 ^ 128 := by
    have := Nat.le_mul_of_pos_right q hm.pos
    omega
  obtain ⟨f1, f2, f3⟩ := quot_finish hm q1 q2
  refine ⟨a - q * m.p, ?_, f2, f3⟩
  have e1 : asU64 a = a % 2 ^ 64 := rfl
  have e2 : asU64 (a / 2 ^ 64) = a / 2 ^ 64 := Nat.mod_eq_of_lt hhi
  have e3 : asU64 (a % m.p) = a % m.p := by
    refine Nat.mod_eq_of_lt (lt_trans (Nat.mod_lt _ hm.pos) (lt_trans hm.lt (by norm_num)))
  unfold lazyReduceU128
  simp only [Nat.shiftRight_eq_div_pow, Option.bind_eq_bind]
  simp only [e1, e2]
  generalize hx : a % 2 ^ 64 * m.barrettLo = x at *
  generalize hy : a / 2 ^ 64 * m.barrettLo = y at *
  generalize hz : a % 2 ^ 64 * m.barrettHi = z at *
  generalize hw : a / 2 ^ 64 * m.barrettHi = w at *
  rw [mul128_eq (by rw [hx]; omega)]; simp only [Option.bind_some, hx]
  rw [mul128_eq (by rw [hy]; omega)]; simp only [Option.bind_some, hy]
  rw [mul128_eq (by rw [hz]; omega)]; simp only [Option.bind_some, hz]
  rw [add128_eq (by omega)]; simp only [Option.bind_some]
  rw [add128_eq (by omega)]; simp only [Option.bind_some]
  rw [mul128_eq (by rw [hw]; omega)]; simp only [Option.bind_some, hw]
  rw [add128_eq (by omega)]; simp only [Option.bind_some, ← hsplit]
  rw [mul128_eq hqa]; simp only [Option.bind_some]
  rw [subU_eq q1]; simp only [Option.bind_some, f1]
  rw [check_eq f2]; simp only [Option.bind_some]
  rw [e3, check_eq f3]; rfl

theorem lazyReduce_eq (hm : m.WF) {a : Nat} (ha : a < 2 ^ 64) :
    ∃ r, m.lazyReduce a = some r ∧ r < 2 * m.p ∧ r % m.p = a % m.p := by
  obtain ⟨q1, q2⟩ := barrett_quot (K := 2 ^ 128) (a := a) hm.pos (by omega)
  set q := a * (2 ^ 128 / m.p) / 2 ^ 128 with hq
  have hsum := hm.hilo
  have hsplit : q = (a * m.barrettHi + a * m.barrettLo / 2 ^ 64) / 2 ^ 64 := by
    have := div_two_pow_split 0 a m.barrettHi m.barrettLo (2 ^ 64) (by norm_num)
    simp only [Nat.zero_mul, Nat.zero_add, Nat.add_zero] at this
    rw [← this, hm.barrett, hq, ← pow_add]
  have b1 : a * m.barrettLo ≤ (2 ^ 64 - 1) * m.barrettLo := Nat.mul_le_mul_right _ (by omega)
  have b3 : a * m.barrettHi ≤ (2 ^ 64 - 1) * m.barrettHi := Nat.mul_le_mul_right _ (by omega)
  have hqa : q * m.p < 2 ^ 128 := by omega
  obtain ⟨f1, f2, f3⟩ := quot_finish hm q1 q2
  refine ⟨a - q * m.p, ?_, f2, f3⟩
  unfold lazyReduce
  simp only [Nat.shiftRight_eq_div_pow, Option.bind_eq_bind]
  generalize hx : a * m.barrettLo = x at *
  generalize hz : a * m.barrettHi = z at *
  rw [mul128_eq (by rw [hx]; omega)]; simp only [Option.bind_some, hx]
  rw [mul128_eq (by rw [hz]; omega)]; simp only [Option.bind_some, hz]
  rw [add128_eq (by omega)]; simp only [Option.bind_some, ← hsplit]
  rw [mul128_eq hqa]; simp only [Option.bind_some]
  rw [subU_eq q1]; simp only [Option.bind_some, f1]
  rw [check_eq f2]; simp only [Option.bind_some]
  rw [check_eq f3]; rfl

theorem reduceU128_eq (hm : m.WF) {a : Nat} (ha : a < 2 ^ 128) : m.reduceU128 a = some (a % m.p) := by
  obtain ⟨r, h1, h2, h3⟩ := lazyReduceU128_eq hm ha
  simp only [reduceU128, h1, Option.bind_eq_bind, Option.bind_some, reduce1_eq hm.lt63 h2, h3]
theorem reduceU128Vt_eq (hm : m.WF) {a : Nat} (ha : a < 2 ^ 128) : m.reduceU128Vt a = some (a % m.p) := by
  obtain ⟨r, h1, h2, h3⟩ := lazyReduceU128_eq hm ha
  simp only [reduceU128Vt, h1, Option.bind_eq_bind, Option.bind_some, reduce1Vt_eq hm.lt63 h2, h3]
theorem reduce_eq (hm : m.WF) {a : Nat} (ha : a < 2 ^ 64) : m.reduce a = some (a % m.p) := by
  obtain ⟨r, h1, h2, h3⟩ := lazyReduce_eq hm ha
  simp only [reduce, h1, Option.bind_eq_bind, Option.bind_some, reduce1_eq hm.lt63 h2, h3]
theorem reduceVt_eq (hm : m.WF) {a : Nat} (ha : a < 2 ^ 64) : m.reduceVt a = some (a % m.p) := by
  obtain ⟨r, h1, h2, h3⟩ := lazyReduce_eq hm ha
  simp only [reduceVt, h1, Option.bind_eq_bind, Option.bind_some, reduce1Vt_eq hm.lt63 h2, h3]

/-! ### Optimized reduction -/

/-- What `supports_opt` gives: with `s` leading zeros and `T = 2^s`. -/
theorem supportsOpt_spec {p : Nat} (hp : 2 ≤ p) (hlt : p < 2 ^ 62) (h : Fhe.supportsOpt p = true) :
    ∃ s, lz64 p = s ∧ 2 ≤ s ∧ s ≤ 62 ∧ p < 2 ^ (64 - s) ∧
      ((2 ^ s) ^ 3 + 1) * 2 ^ 64 < (2 ^ s) ^ 3 * (2 ^ s + 1) * p := by
  have hb : bitLen p ≤ 62 := bitLen_le_iff.2 hlt
  have hb2 : 2 ≤ bitLen p := by
    by_contra hc
    have : p < 2 ^ 1 := bitLen_le_iff.1 (by omega)
    omega
  refine ⟨lz64 p, rfl, by unfold lz64; omega, by unfold lz64; omega, ?_, ?_⟩
  · have : 64 - lz64 p = bitLen p := by unfold lz64; omega
    rw [this]; exact lt_two_pow_bitLen p
  · unfold Fhe.supportsOpt at h
    rw [if_neg (by unfold lz64; omega)] at h
    simp only [decide_eq_true_eq, Nat.shiftLeft_eq, Nat.one_mul] at h
    rw [← pow_mul, Nat.mul_comm (lz64 p) 3]
    exact h

theorem opt_lt {T p W : Nat} (h : (T ^ 3 + 1) * W < T ^ 3 * (T + 1) * p) : W < (T + 1) * p := by
  have h1 : T ^ 3 * W < T ^ 3 * ((T + 1) * p) := by
    calc T ^ 3 * W ≤ (T ^ 3 + 1) * W := Nat.mul_le_mul_right _ (by omega)
      _ < T ^ 3 * (T + 1) * p := h
      _ = T ^ 3 * ((T + 1) * p) := by ring
  exact Nat.lt_of_mul_lt_mul_left h1

theorem lazyReduceOpt_eq (hm : m.WF) (ho : m.supportsOpt = true) {a : Nat} (ha : a < 2 ^ 64) :
    ∃ r, m.lazyReduceOpt a = some r ∧ r < 2 * m.p ∧ r % m.p = a % m.p := by
  obtain ⟨s, hs, s2, s62, hlt, hopt⟩ := supportsOpt_spec hm.two_le hm.lt (hm.opt ▸ ho)
  have hW := opt_lt hopt
  have hk : 2 ^ s * 2 ^ (64 - s) = 2 ^ 64 := by rw [← pow_add]; congr 1; omega
  set q := a / 2 ^ (64 - s) with hq
  set K := 2 ^ (64 - s) with hK
  set T := 2 ^ s with hT
  have hKpos : 0 < K := by positivity
  have hTpos : 0 < T := by positivity
  have hdm : K * q + a % K = a := Nat.div_add_mod a K
  have hmod : a % K < K := Nat.mod_lt _ hKpos
  have hqT : q < T := by
    apply Nat.div_lt_of_lt_mul; rw [Nat.mul_comm, hk]; exact ha
  have q1 : q * m.p ≤ a := by
    have := Nat.mul_le_mul_left q hlt.le
    rw [Nat.mul_comm q K] at this
    omega
  have q2 : a < (q + 2) * m.p := by
    -- q*(K-p) ≤ (T-1)*(K-p)
    have h1 : q * (K - m.p) ≤ (T - 1) * (K - m.p) := Nat.mul_le_mul_right _ (by omega)
    have h2 : q * K = q * (K - m.p) + q * m.p := by rw [← Nat.mul_add]; congr 1; omega
    have h3 : T * K = (T - 1) * (K - m.p) + (T - 1) * m.p + K := by
      have : T * K = (T - 1) * K + K := by
        conv_lhs => rw [show T = (T - 1) + 1 by omega]
        ring
      rw [this, ← Nat.mul_add]; congr 2; omega
    have h4 : (T + 1) * m.p = (T - 1) * m.p + 2 * m.p := by rw [← Nat.add_mul]; congr 1; omega
    have h5 : (q + 2) * m.p = q * m.p + 2 * m.p := by ring
    rw [Nat.mul_comm K q] at hdm
    omega
  have hqa : q * m.p < 2 ^ 128 := by omega
  obtain ⟨f1, f2, f3⟩ := quot_finish hm q1 q2
  refine ⟨a - q * m.p, ?_, f2, f3⟩
  unfold lazyReduceOpt
  have hz : m.leadingZeros = s := by rw [hm.lz, hs]
  simp only [Option.bind_eq_bind, hz]
  rw [subU_eq (by omega)]; simp only [Option.bind_some]
  rw [check_eq (by omega)]; simp only [Option.bind_some, Nat.shiftRight_eq_div_pow, ← hq, ← hK]
  rw [mul128_eq hqa]; simp only [Option.bind_some]
  rw [subU_eq q1]; simp only [Option.bind_some, f1]
  rw [check_eq f2]; simp only [Option.bind_some]
  rw [check_eq f3]; rfl

/-- The arithmetic core of the optimized 128-bit reduction, with `W = 2^64`, `T = 2^s`. -/
theorem opt_u128_core {W T p a lo : Nat} (hT : 1 ≤ T) (hp : 0 < p) (hTp : T * p < W)
    (hopt : (T ^ 3 + 1) * W < T ^ 3 * (T + 1) * p) (hlo : (W * T + lo) * p ≤ W * W)
    (hlo2 : W * W < (W * T + lo + 1) * p) (ha : a < p * p) :
    (lo * (a / W) + a * T) / W * p ≤ a ∧ a < ((lo * (a / W) + a * T) / W + 2) * p := by
  have hW : 0 < W := by omega
  set A := a / W with hA
  set a0 := a % W with ha0
  have hdm : W * A + a0 = a := Nat.div_add_mod a W
  have ha0W : a0 < W := Nat.mod_lt _ hW
  set q := (lo * A + a * T) / W with hq
  have hq1 : q * W ≤ lo * A + a * T := Nat.div_mul_le_self _ _
  have hq2 : lo * A + a * T < (q + 1) * W := by rw [Nat.mul_comm (q + 1)]; exact Nat.lt_mul_div_succ _ hW
  obtain ⟨R, hR⟩ : ∃ R, W = T * p + R := ⟨W - T * p, by omega⟩
  constructor
  · -- q * W * W * p ≤ (lo * A * W + a * T * W) * p ≤ a * (lo + T W) * p ≤ a * W * W
    apply Nat.le_of_mul_le_mul_right (c := W * W) _ (by positivity)
    calc q * p * (W * W) = q * W * (W * p) := by ring
      _ ≤ (lo * A + a * T) * (W * p) := Nat.mul_le_mul_right _ hq1
      _ = lo * (W * A) * p + a * T * W * p := by ring
      _ ≤ lo * a * p + a * T * W * p := by
        have : W * A ≤ a := by omega
        have := Nat.mul_le_mul_right p (Nat.mul_le_mul_left lo this)
        omega
      _ = a * ((W * T + lo) * p) := by ring
      _ ≤ a * (W * W) := Nat.mul_le_mul_left _ hlo
  · -- bound on R
    have hRb : T * T * R + p ≤ T * T * p := by
      -- (T^3+1)(Tp+R) < T^3 (T+1) p  →  (T^3+1) R + T p < T^3 p
      have e : (T ^ 3 + 1) * (T * p + R) < T ^ 3 * (T + 1) * p := by rw [← hR]; exact hopt
      have e1 : (T ^ 3 + 1) * R + T * p < T ^ 3 * p := by linarith
      -- (T+1) * ((T²-T+1) R) = (T³+1) R ;  (T³-T) p = (T+1)(T²-T) p
      obtain ⟨t, rfl⟩ : ∃ t, T = t + 1 := ⟨T - 1, by omega⟩
      have e2 : (t + 2) * ((t * t + t + 1) * R) < (t + 2) * ((t * t + t) * p) := by linarith
      have e3 : (t * t + t + 1) * R < (t * t + t) * p := Nat.lt_of_mul_lt_mul_left e2
      -- T² = t² + 2 t + 1 = (t²+t+1) + t
      by_contra hcon
      push Not at hcon
      have e4 : (t + 1) * (t + 1) * p < (t + 1) * (t + 1) * R + p := hcon
      have hRp : R < p := by
        by_contra hc
        push Not at hc
        have := Nat.mul_le_mul_left (t * t + t + 1) hc
        linarith
      have := Nat.mul_le_mul_left t hRp.le
      linarith
    have hAp : A * p * (T * T) ≤ W * p := by
      -- A W ≤ a < p², T p ≤ W
      have h1 : W * A ≤ p * p := by omega
      have h2 : (T * p) * (T * p) ≤ W * W := Nat.mul_le_mul hTp.le hTp.le
      refine Nat.le_of_mul_le_mul_left (a := A * p * (T * T)) (b := W * p) (c := W) ?_ hW
      calc W * (A * p * (T * T)) = W * A * (p * (T * T)) := by ring
        _ ≤ p * p * (p * (T * T)) := Nat.mul_le_mul_right _ h1
        _ = p * ((T * p) * (T * p)) := by ring
        _ ≤ p * (W * W) := Nat.mul_le_mul_left _ h2
        _ = W * (W * p) := by ring
    -- main
    by_contra hc
    push Not at hc
    have c1 : (q + 2) * p * W ≤ a * W := Nat.mul_le_mul_right _ hc
    have c2 : (lo * A + a * T + 1) * p ≤ (q + 1) * W * p := Nat.mul_le_mul_right _ hq2
    have c3 : lo * A * p + a * T * p + p + p * W ≤ a * W := by linarith
    -- a W = a T p + a R
    have c4 : lo * A * p + p + p * W ≤ a * R := by
      have : a * W = a * T * p + a * R := by rw [hR]; ring
      omega
    have c5 : W * R * A ≤ lo * p * A + p * A := by
      have : W * R ≤ lo * p + p := by
        have : W * W = W * T * p + W * R := by
          conv_lhs => rw [hR]
          rw [hR]; ring
        linarith
      calc W * R * A ≤ (lo * p + p) * A := Nat.mul_le_mul_right _ this
        _ = _ := by ring
    have c6 : a * R = W * R * A + a0 * R := by rw [← hdm]; ring
    have c7 : a0 * R ≤ W * R := Nat.mul_le_mul_right _ ha0W.le
    have c8 : p + p * W ≤ A * p + W * R := by linarith
    have c9 : (p + p * W) * (T * T) ≤ W * p + W * R * (T * T) := by
      calc (p + p * W) * (T * T) ≤ (A * p + W * R) * (T * T) := Nat.mul_le_mul_right _ c8
        _ = A * p * (T * T) + W * R * (T * T) := by ring
        _ ≤ _ := by omega
    have c10 : W * (T * T * R + p) ≤ W * (T * T * p) := Nat.mul_le_mul_left _ hRb
    have c11 : 0 < p * (T * T) := by positivity
    linarith

theorem lazyReduceOptU128_eq (hm : m.WF) (ho : m.supportsOpt = true) {a : Nat} (ha : a < m.p * m.p) :
    ∃ r, m.lazyReduceOptU128 a = some r ∧ r < 2 * m.p ∧ r % m.p = a % m.p := by
  obtain ⟨s, hs, s2, s62, hlt, hopt⟩ := supportsOpt_spec hm.two_le hm.lt (hm.opt ▸ ho)
  have hW := opt_lt hopt
  have hk : 2 ^ s * 2 ^ (64 - s) = 2 ^ 64 := by rw [← pow_add]; congr 1; omega
  have hTp : 2 ^ s * m.p < 2 ^ 64 := by
    rw [← hk]; exact Nat.mul_lt_mul_of_pos_left hlt (by positivity)
  have hhi : m.barrettHi = 2 ^ s := by
    rw [hm.hi, Nat.div_div_eq_div_mul, Nat.mul_comm, ← Nat.div_div_eq_div_mul]
    have : (2 : Nat) ^ 128 / 2 ^ 64 = 2 ^ 64 := by norm_num
    rw [this]
    apply Nat.div_eq_of_lt_le
    · exact hTp.le
    · exact hW
  have hB := hm.barrett
  rw [hhi] at hB
  have hlo1 : (2 ^ 64 * 2 ^ s + m.barrettLo) * m.p ≤ 2 ^ 64 * 2 ^ 64 := by
    rw [hB, ← pow_add]; exact Nat.div_mul_le_self _ _
  have hlo2 : 2 ^ 64 * 2 ^ 64 < (2 ^ 64 * 2 ^ s + m.barrettLo + 1) * m.p := by
    rw [hB, ← pow_add, Nat.mul_comm]; exact Nat.lt_mul_div_succ _ hm.pos
  obtain ⟨q1, q2⟩ := opt_u128_core (a := a) (Nat.one_le_two_pow) hm.pos hTp hopt hlo1 hlo2 ha
  have hlo : m.barrettLo < 2 ^ 64 := by have := hm.hilo; omega
  have hp2 : m.p * m.p < 2 ^ (64 - s) * 2 ^ (64 - s) := Nat.mul_lt_mul'' hlt hlt
  have haT : a * 2 ^ s < 2 ^ 126 := by
    have h62 : (2 : Nat) ^ (64 - s) ≤ 2 ^ 62 := Nat.pow_le_pow_right (by norm_num) (by omega)
    calc a * 2 ^ s < 2 ^ (64 - s) * 2 ^ (64 - s) * 2 ^ s :=
          Nat.mul_lt_mul_of_pos_right (by omega) (by positivity)
      _ = 2 ^ (64 - s) * 2 ^ 64 := by rw [← hk]; ring
      _ ≤ 2 ^ 62 * 2 ^ 64 := Nat.mul_le_mul_right _ h62
      _ = 2 ^ 126 := by norm_num
  have ha124 : a < 2 ^ 124 := by
    have : m.p * m.p < 2 ^ 62 * 2 ^ 62 := Nat.mul_lt_mul'' hm.lt hm.lt
    omega
  have hloA : m.barrettLo * (a / 2 ^ 64) < 2 ^ 124 := by
    calc m.barrettLo * (a / 2 ^ 64) ≤ 2 ^ 64 * (a / 2 ^ 64) := Nat.mul_le_mul_right _ hlo.le
      _ ≤ a := Nat.mul_div_le _ _
      _ < 2 ^ 124 := ha124
  have hshl : shl128 a s = a * 2 ^ s := by
    unfold shl128; rw [Nat.shiftLeft_eq]; exact Nat.mod_eq_of_lt (by omega)
  set q := (m.barrettLo * (a / 2 ^ 64) + a * 2 ^ s) / 2 ^ 64 with hq
  have hqa : q * m.p < 2 ^ 128 := by omega
  obtain ⟨f1, f2, f3⟩ := quot_finish hm q1 q2
  refine ⟨a - q * m.p, ?_, f2, f3⟩
  have e3 : asU64 (a % m.p) = a % m.p := by
    refine Nat.mod_eq_of_lt (lt_trans (Nat.mod_lt _ hm.pos) (lt_trans hm.lt (by norm_num)))
  unfold lazyReduceOptU128
  have hz : m.leadingZeros = s := by rw [hm.lz, hs]
  simp only [Option.bind_eq_bind, hz, Nat.shiftRight_eq_div_pow, hshl]
  rw [check_eq ha]; simp only [Option.bind_some]
  rw [mul128_eq (by omega)]; simp only [Option.bind_some]
  rw [add128_eq (by omega)]; simp only [Option.bind_some, ← hq]
  rw [mul128_eq hqa]; simp only [Option.bind_some]
  rw [subU_eq q1]; simp only [Option.bind_some, f1]
  rw [check_eq f2]; simp only [Option.bind_some]
  rw [e3, check_eq f3]; rfl

theorem reduceOptU128_eq (hm : m.WF) (ho : m.supportsOpt = true) {a : Nat} (ha : a < m.p * m.p) :
    m.reduceOptU128 a = some (a % m.p) := by
  obtain ⟨r, h1, h2, h3⟩ := lazyReduceOptU128_eq hm ho ha
  simp only [reduceOptU128, check_eq ho, h1, Option.bind_eq_bind, Option.bind_some, reduce1_eq hm.lt63 h2, h3]
theorem reduceOptU128Vt_eq (hm : m.WF) (ho : m.supportsOpt = true) {a : Nat} (ha : a < m.p * m.p) :
    m.reduceOptU128Vt a = some (a % m.p) := by
  obtain ⟨r, h1, h2, h3⟩ := lazyReduceOptU128_eq hm ho ha
  simp only [reduceOptU128Vt, check_eq ho, h1, Option.bind_eq_bind, Option.bind_some, reduce1Vt_eq hm.lt63 h2, h3]
theorem reduceOpt_eq (hm : m.WF) (ho : m.supportsOpt = true) {a : Nat} (ha : a < 2 ^ 64) :
    m.reduceOpt a = some (a % m.p) := by
  obtain ⟨r, h1, h2, h3⟩ := lazyReduceOpt_eq hm ho ha
  simp only [reduceOpt, h1, Option.bind_eq_bind, Option.bind_some, reduce1_eq hm.lt63 h2, h3]
theorem reduceOptVt_eq (hm : m.WF) (ho : m.supportsOpt = true) {a : Nat} (ha : a < 2 ^ 64) :
    m.reduceOptVt a = some (a % m.p) := by
  obtain ⟨r, h1, h2, h3⟩ := lazyReduceOpt_eq hm ho ha
  simp only [reduceOptVt, h1, Option.bind_eq_bind, Option.bind_some, reduce1Vt_eq hm.lt63 h2, h3]

/-! ### Scalar operations -/

theorem add_eq (hm : m.WF) {a b : Nat} (ha : a < m.p) (hb : b < m.p) : m.add a b = some ((a + b) % m.p) := by
  have := hm.lt
  simp only [add, check_eq (And.intro ha hb), Option.bind_eq_bind, Option.bind_some]
  rw [add64_eq (by omega)]; simp only [Option.bind_some]
  exact reduce1_eq hm.lt63 (by omega)
theorem addVt_eq (hm : m.WF) {a b : Nat} (ha : a < m.p) (hb : b < m.p) : m.addVt a b = some ((a + b) % m.p) := by
  have := hm.lt
  simp only [addVt, check_eq (And.intro ha hb), Option.bind_eq_bind, Option.bind_some]
  rw [add64_eq (by omega)]; simp only [Option.bind_some]
  exact reduce1Vt_eq hm.lt63 (by omega)
theorem sub_eq (hm : m.WF) {a b : Nat} (ha : a < m.p) (hb : b < m.p) : m.sub a b = some ((a + m.p - b) % m.p) := by
  have := hm.lt
  simp only [sub, check_eq (And.intro ha hb), Option.bind_eq_bind, Option.bind_some]
  rw [add64_eq (by omega)]; simp only [Option.bind_some]
  rw [subU_eq (by omega)]; simp only [Option.bind_some]
  exact reduce1_eq hm.lt63 (by omega)
theorem mul_lt_sq (hm : m.WF) {a b : Nat} (ha : a < m.p) (hb : b < m.p) :
    a * b < m.p * m.p ∧ a * b < 2 ^ 128 := by
  have h1 : a * b < m.p * m.p := Nat.mul_lt_mul'' ha hb
  have h2 : m.p * m.p < 2 ^ 62 * 2 ^ 62 := Nat.mul_lt_mul'' hm.lt hm.lt
  exact ⟨h1, by omega⟩
theorem mul_eq (hm : m.WF) {a b : Nat} (ha : a < m.p) (hb : b < m.p) : m.mul a b = some (a * b % m.p) := by
  obtain ⟨h1, h2⟩ := mul_lt_sq hm ha hb
  simp only [mul, check_eq (And.intro ha hb), Option.bind_eq_bind, Option.bind_some, mul128_eq h2, reduceU128_eq hm h2]
theorem mulVt_eq (hm : m.WF) {a b : Nat} (ha : a < m.p) (hb : b < m.p) : m.mulVt a b = some (a * b % m.p) := by
  obtain ⟨h1, h2⟩ := mul_lt_sq hm ha hb
  obtain ⟨r, r1, r2, r3⟩ := lazyReduceU128_eq hm h2
  simp only [mulVt, check_eq (And.intro ha hb), Option.bind_eq_bind, Option.bind_some, mul128_eq h2, r1,
    reduce1Vt_eq hm.lt63 r2, r3]
theorem mulOpt_eq (hm : m.WF) (ho : m.supportsOpt = true) {a b : Nat} (ha : a < m.p) (hb : b < m.p) :
    m.mulOpt a b = some (a * b % m.p) := by
  obtain ⟨h1, h2⟩ := mul_lt_sq hm ha hb
  simp only [mulOpt, check_eq ho, check_eq (And.intro ha hb), Option.bind_eq_bind, Option.bind_some, mul128_eq h2,
    reduceOptU128_eq hm ho h1]
theorem mulOptVt_eq (hm : m.WF) (ho : m.supportsOpt = true) {a b : Nat} (ha : a < m.p) (hb : b < m.p) :
    m.mulOptVt a b = some (a * b % m.p) := by
  obtain ⟨h1, h2⟩ := mul_lt_sq hm ha hb
  simp only [mulOptVt, check_eq ho, check_eq (And.intro ha hb), Option.bind_eq_bind, Option.bind_some, mul128_eq h2,
    reduceOptU128Vt_eq hm ho h1]
theorem neg_eq (hm : m.WF) {a : Nat} (ha : a < m.p) : m.neg a = some ((m.p - a) % m.p) := by
  simp only [neg, check_eq ha, Option.bind_eq_bind, Option.bind_some, subU_eq ha.le]
  exact reduce1_eq hm.lt63 (by omega)
theorem negVt_eq (hm : m.WF) {a : Nat} (ha : a < m.p) : m.negVt a = some ((m.p - a) % m.p) := by
  simp only [negVt, check_eq ha, Option.bind_eq_bind, Option.bind_some, subU_eq ha.le]
  exact reduce1Vt_eq hm.lt63 (by omega)

/-! ### Shoup -/

theorem shoup_eq (hm : m.WF) {b : Nat} (hb : b < m.p) : m.shoup b = some (b * 2 ^ 64 / m.p) := by
  have hlt := hm.lt
  have h1 : shl128 b 64 = b * 2 ^ 64 := by
    unfold shl128; rw [Nat.shiftLeft_eq]; exact Nat.mod_eq_of_lt (by omega)
  have h2 : b * 2 ^ 64 / m.p < 2 ^ 64 := by
    apply Nat.div_lt_of_lt_mul; exact Nat.mul_lt_mul_of_pos_right hb (by norm_num)
  simp only [shoup, check_eq hb, Option.bind_eq_bind, Option.bind_some, h1]
  unfold asU64
  rw [Nat.mod_eq_of_lt h2]; rfl

theorem shoup_quot {W p a b : Nat} (hp : 0 < p) (hW : 0 < W) (ha : a < W) :
    a * (b * W / p) / W * p ≤ a * b ∧ a * b < (a * (b * W / p) / W + 2) * p := by
  set s := b * W / p with hs
  set q := a * s / W with hq
  have h1 : s * p ≤ b * W := Nat.div_mul_le_self _ _
  have h2 : b * W < (s + 1) * p := by rw [Nat.mul_comm (s + 1)]; exact Nat.lt_mul_div_succ _ hp
  have h3 : q * W ≤ a * s := Nat.div_mul_le_self _ _
  have h4 : a * s < (q + 1) * W := by rw [Nat.mul_comm (q + 1)]; exact Nat.lt_mul_div_succ _ hW
  constructor
  · apply Nat.le_of_mul_le_mul_right (c := W) _ hW
    calc q * p * W = q * W * p := by ring
      _ ≤ a * s * p := Nat.mul_le_mul_right _ h3
      _ = a * (s * p) := by ring
      _ ≤ a * (b * W) := Nat.mul_le_mul_left _ h1
      _ = a * b * W := by ring
  · apply Nat.lt_of_mul_lt_mul_right (a := W)
    calc a * b * W = a * (b * W) := by ring
      _ ≤ a * ((s + 1) * p) := Nat.mul_le_mul_left _ h2.le
      _ = a * s * p + a * p := by ring
      _ < (q + 1) * W * p + W * p := by
        have := Nat.mul_lt_mul_of_pos_right h4 hp
        have := Nat.mul_le_mul_right p ha.le
        omega
      _ = (q + 2) * p * W := by ring

theorem lazyMulShoup_eq (hm : m.WF) {a b bs : Nat} (ha : a < 2 ^ 64) (hb : b < m.p) (hbs : m.shoup b = some bs) :
    ∃ r, m.lazyMulShoup a b bs = some r ∧ r < 2 * m.p ∧ r % m.p = a * b % m.p := by
  have hlt := hm.lt
  have hbs' : bs = b * 2 ^ 64 / m.p := by
    rw [shoup_eq hm hb] at hbs; exact (Option.some.inj hbs).symm
  obtain ⟨q1, q2⟩ := shoup_quot (b := b) hm.pos (by norm_num : 0 < 2 ^ 64) ha
  rw [← hbs'] at q1 q2
  have hbs64 : bs < 2 ^ 64 := by
    rw [hbs']; apply Nat.div_lt_of_lt_mul; exact Nat.mul_lt_mul_of_pos_right hb (by norm_num)
  have hab : a * b < 2 ^ 128 := by
    calc a * b < 2 ^ 64 * 2 ^ 64 := Nat.mul_lt_mul'' ha (by omega)
      _ = 2 ^ 128 := by norm_num
  have habs : a * bs < 2 ^ 128 := by
    calc a * bs < 2 ^ 64 * 2 ^ 64 := Nat.mul_lt_mul'' ha hbs64
      _ = 2 ^ 128 := by norm_num
  set q := a * bs / 2 ^ 64 with hq
  obtain ⟨f1, f2, f3⟩ := quot_finish hm q1 q2
  refine ⟨a * b - q * m.p, ?_, f2, f3⟩
  unfold lazyMulShoup
  simp only [Option.bind_eq_bind]
  rw [check_eq hb]; simp only [Option.bind_some]
  rw [check_eq hbs.symm]; simp only [Option.bind_some]
  rw [mul128_eq habs]; simp only [Option.bind_some]
  rw [mul128_eq hab]; simp only [Option.bind_some, Nat.shiftRight_eq_div_pow, ← hq]
  rw [mul128_eq (by omega)]; simp only [Option.bind_some]
  rw [subU_eq q1]; simp only [Option.bind_some, f1]
  rw [mul64_eq (by omega)]; simp only [Option.bind_some]
  rw [check_eq f2]; rfl

theorem mulShoup_eq (hm : m.WF) {a b bs : Nat} (ha : a < 2 ^ 64) (hb : b < m.p) (hbs : m.shoup b = some bs) :
    m.mulShoup a b bs = some (a * b % m.p) := by
  obtain ⟨r, r1, r2, r3⟩ := lazyMulShoup_eq hm ha hb hbs
  simp only [mulShoup, r1, Option.bind_eq_bind, Option.bind_some, reduce1_eq hm.lt63 r2, r3]
theorem mulShoupVt_eq (hm : m.WF) {a b bs : Nat} (ha : a < 2 ^ 64) (hb : b < m.p) (hbs : m.shoup b = some bs) :
    m.mulShoupVt a b bs = some (a * b % m.p) := by
  obtain ⟨r, r1, r2, r3⟩ := lazyMulShoup_eq hm ha hb hbs
  simp only [mulShoupVt, r1, Option.bind_eq_bind, Option.bind_some, reduce1Vt_eq hm.lt63 r2, r3]

end Modulus
end Fhe
