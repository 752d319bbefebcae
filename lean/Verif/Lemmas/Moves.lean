import Verif.Spec.Moves
import Verif.Lemmas.BfvEvalKey
import Verif.Lemmas.Trace
/-!
# Lemmas about sequences of rotations
-/
namespace Fhe.Move
open Nega

/-- The exponent of the automorphism that the calls amount to. -/
def exponent (N : Nat) (l : List Move) : Nat := 3 ^ steps l * (2 * N - 1) ^ swaps l

theorem three_pow_odd (t : Nat) : 3 ^ t % 2 = 1 := Nat.odd_iff.1 (Odd.pow (by decide))

theorem neg_odd {N : Nat} (hN : 0 < N) : (2 * N - 1) % 2 = 1 := by omega

theorem exponent_odd {N : Nat} (hN : 0 < N) (l : List Move) : exponent N l % 2 = 1 :=
  Nat.odd_iff.1 (Odd.mul (Odd.pow (by decide)) (Odd.pow (Nat.odd_iff.2 (neg_odd hN))))

theorem source_source {N : Nat} (hN : 2 ≤ N) (a c a' c' i : Nat) : source N a c (source N a' c' i) = source N (a' + a) (c' + c) i := by
  have hh : 0 < N / 2 := by omega
  unfold source
  generalize N / 2 = H at hh
  have h1 : ((i / H + c') % 2 * H + (i % H + a') % H) / H = (i / H + c') % 2 := by
    rw [mul_comm, Nat.mul_add_div hh, Nat.div_eq_of_lt (Nat.mod_lt _ hh), add_zero]
  have h2 : ((i / H + c') % 2 * H + (i % H + a') % H) % H = (i % H + a') % H := by
    rw [mul_comm, Nat.mul_add_mod, Nat.mod_mod]
  rw [h1, h2, Nat.mod_add_mod, Nat.mod_add_mod, add_assoc, add_assoc]

theorem source_lt {N : Nat} (hN : 2 ≤ N) (h2 : 2 ∣ N) (a c i : Nat) : source N a c i < N := by
  have hh : 0 < N / 2 := by omega
  have h1 : (i % (N / 2) + a) % (N / 2) < N / 2 := Nat.mod_lt _ hh
  have h3 : (i / (N / 2) + c) % 2 ≤ 1 := by omega
  have h4 : (i / (N / 2) + c) % 2 * (N / 2) ≤ 1 * (N / 2) := Nat.mul_le_mul_right _ h3
  unfold source
  omega

theorem source_mod {N a a' c c' : Nat} (h : a % (N / 2) = a' % (N / 2)) (h' : c % 2 = c' % 2) (i : Nat) : source N a c i = source N a' c' i := by
  unfold source
  rw [Nat.add_mod (i % (N / 2)) a, h, ← Nat.add_mod, Nat.add_mod (i / (N / 2)) c, h', ← Nat.add_mod]

theorem source_zero {N i : Nat} (h2 : 2 ∣ N) (hi : i < N) : source N 0 0 i = i := by
  have hh : 0 < N / 2 := by omega
  have h1 : i / (N / 2) < 2 := Nat.div_lt_of_lt_mul (by omega)
  unfold source
  rw [add_zero, add_zero, Nat.mod_mod, Nat.mod_eq_of_lt h1]
  exact Nat.div_add_mod' i _

theorem source_columns {N i : Nat} (h2 : 2 ∣ N) (hi : i < N) (t : Nat) : rotateColumns N t i = source N t 0 i := by
  have hh : 0 < N / 2 := by omega
  unfold rotateColumns source
  by_cases h : i < N / 2
  · rw [if_pos h, Nat.div_eq_of_lt h, Nat.mod_eq_of_lt h]; simp
  · have h1 : i / (N / 2) = 1 := by
      rw [Nat.div_eq_iff hh]; omega
    have h3 : i % (N / 2) = i - N / 2 := by
      rw [Nat.mod_eq_sub_mod (by omega), Nat.mod_eq_of_lt (by omega)]
    rw [if_neg h, h1, h3]; simp

theorem source_rows {N i : Nat} (h2 : 2 ∣ N) (hi : i < N) : swapRows N i = source N 0 1 i := by
  have hh : 0 < N / 2 := by omega
  unfold swapRows source
  by_cases h : i < N / 2
  · rw [Nat.div_eq_of_lt h, Nat.mod_eq_of_lt h, Nat.mod_eq_of_lt (by omega), add_zero, Nat.mod_eq_of_lt h]; simp [add_comm]
  · have h1 : i / (N / 2) = 1 := by
      rw [Nat.div_eq_iff hh]; omega
    have h3 : i % (N / 2) = i - N / 2 := by
      rw [Nat.mod_eq_sub_mod (by omega), Nat.mod_eq_of_lt (by omega)]
    rw [h1, h3, add_zero, Nat.mod_eq_of_lt (show i - N / 2 < N / 2 by omega), Nat.mod_eq_sub_mod (by omega), Nat.mod_eq_of_lt (by omega)]
    simp; omega

variable {b : Build} {n : Nat} {par : Par} {s : IntPoly par.degree} {k : EvaluationKey} {i j e : Nat}

/-- The slots of what the calls make of a message. -/
theorem slots_exponent {N t : Nat} {ζ : ZMod t} (hζ : ζ ^ N = -1) {n : Nat} (hn : 2 ≤ n) (hN : N = 2 ^ n) (l : List Move) (m : Nega N (ZMod t)) (i : Nat) (hi : i < N) :
    slotValue ζ (Nega.subst (exponent N l) m) i = slotValue ζ m (source N (steps l) (swaps l) i) := by
  have h2 : 2 ∣ N := by rw [hN]; exact dvd_pow_self 2 (by omega)
  have hN4 : 4 ≤ N := by rw [hN]; exact (Nat.pow_le_pow_right (by norm_num) hn : 2 ^ 2 ≤ 2 ^ n)
  induction l generalizing m with
  | nil => 
    show slotValue ζ (Nega.subst (3 ^ 0 * (2 * N - 1) ^ 0) m) i = slotValue ζ m (source N 0 0 i)
    rw [source_zero h2 hi, pow_zero, pow_zero, mul_one, subst_one]
  | cons x l ih =>
    cases x with
    | rows =>
      have e1 : exponent N (rows :: l) = exponent N l * (2 * N - 1) := by
        show 3 ^ steps l * (2 * N - 1) ^ (swaps l + 1) = _
        rw [pow_succ, ← mul_assoc]; rfl
      rw [e1, ← subst_subst (exponent_odd (by omega) l) (neg_odd (by omega)), ih,
        slot_subst hζ (by omega) hN _ m _ _ (slotPower_swap hn hN (Nat.mod_eq_of_lt (by omega)) (source_lt (by omega) h2 _ _ _)), source_rows h2 (source_lt (by omega) h2 _ _ _), source_source (by omega)]
      rfl
    | columns t =>
      have e1 : exponent N (columns t :: l) = exponent N l * 3 ^ t := by
        show 3 ^ (t + steps l) * (2 * N - 1) ^ swaps l = 3 ^ steps l * (2 * N - 1) ^ swaps l * 3 ^ t
        rw [pow_add]; ring
      rw [e1, ← subst_subst (exponent_odd (by omega) l) (three_pow_odd t), ih,
        slot_subst hζ (by omega) hN _ m _ _ (slotPower_rotate hn hN rfl _), source_columns h2 (source_lt (by omega) h2 _ _ _), source_source (by omega)]
      show _ = slotValue ζ m (source N (t + steps l) (swaps l) i)
      rw [add_comm t, add_zero]

/-- The calls, on a ciphertext. -/
theorem applyAll_eq (hw : ParWF b n par.toBfvParameters) (hk : k.IsFor par s i j e) {S B V : Nat} (hS : s.Bounded S) (hB : k.ErrorAtMost par S e B) {l : List Move}
    (hl : ∀ x ∈ l, x.Supported k) {ct : Ciphertext} {m : par.Msg} (h : ct.Fits par s i m V) :
    ∃ r, applyAll k l ct = Res.ok r ∧ r.Fits par s i (Nega.subst (exponent par.degree l) m) (V + l.length * (par.plaintext.value * B)) := by
  have hpos : 0 < par.degree := by rw [hw.degree]; positivity
  induction l generalizing ct m V with
  | nil => 
    refine ⟨ct, rfl, ?_⟩
    have e1 : exponent par.degree [] = 1 := rfl
    rw [e1, subst_one]; simpa using h
  | cons x l ih =>
    have hx := hl x (List.mem_cons_self ..)
    have hl' : ∀ y ∈ l, y.Supported k := fun y hy => hl y (List.mem_cons_of_mem _ hy)
    have e2 : ∀ V : Nat, V + par.plaintext.value * B + l.length * (par.plaintext.value * B) = V + (x :: l).length * (par.plaintext.value * B) := fun V => by
      rw [List.length_cons]; ring
    cases x with
    | rows =>
      obtain ⟨r, r1, r2⟩ := (EvaluationKey.rotates_eq hw hk hS hB h).1 hx
      obtain ⟨r', r3, r4⟩ := ih hl' r2
      refine ⟨r', ?_, ?_⟩
      · show (k.rotatesRows ct >>= fun ct' => applyAll k l ct') = _
        rw [r1, Res.ok_bind, r3]
      · have e1 : exponent par.degree (rows :: l) = exponent par.degree l * (2 * par.degree - 1) := by
          show 3 ^ steps l * (2 * par.degree - 1) ^ (swaps l + 1) = _
          rw [pow_succ, ← mul_assoc]; rfl
        rw [e1, ← subst_subst (exponent_odd hpos l) (neg_odd hpos), ← e2]
        exact r4
    | columns t =>
      obtain ⟨-, -, r, r1, r2⟩ := (EvaluationKey.rotates_eq hw hk hS hB h).2 t hx
      obtain ⟨r', r3, r4⟩ := ih hl' r2
      refine ⟨r', ?_, ?_⟩
      · show (k.rotatesColumnsBy ct t >>= fun ct' => applyAll k l ct') = _
        rw [r1, Res.ok_bind, r3]
      · have e1 : exponent par.degree (columns t :: l) = exponent par.degree l * 3 ^ t := by
          show 3 ^ (t + steps l) * (2 * par.degree - 1) ^ swaps l = 3 ^ steps l * (2 * par.degree - 1) ^ swaps l * 3 ^ t
          rw [pow_add]; ring
        rw [e1, ← subst_subst (exponent_odd hpos l) (three_pow_odd t), ← e2]
        exact r4

theorem pow_mod_of {a M p x y : Nat} (h : a ^ p % M = 1 % M) (hxy : x % p = y % p) : a ^ x % M = a ^ y % M := by
  have key : ∀ x, a ^ x % M = a ^ (x % p) % M := fun x => by
    conv_lhs => rw [← Nat.div_add_mod x p, pow_add, pow_mul, Nat.mul_mod, Nat.pow_mod, h, ← Nat.pow_mod, one_pow, ← Nat.mul_mod, one_mul]
  rw [key x, key y, hxy]

theorem exponent_mod {N n : Nat} (hn : 3 ≤ n) (hN : N = 2 ^ n) {l l' : List Move} (h : steps l % (N / 2) = steps l' % (N / 2)) (h' : swaps l % 2 = swaps l' % 2) :
    exponent N l % (2 * N) = exponent N l' % (2 * N) := by
  obtain ⟨p, rfl⟩ : ∃ p, n = p + 2 := ⟨n - 2, by omega⟩
  have hh : N / 2 = 2 ^ (p + 1) := by rw [hN, pow_succ, Nat.mul_div_cancel _ (by norm_num)]
  have h2N : 2 * N = 2 ^ (p + 3) := by rw [hN]; ring
  have h3 : 3 ^ (N / 2) % (2 * N) = 1 % (2 * N) := by
    obtain ⟨q, hq⟩ := three_pow_two_pow p
    rw [hh, hq, h2N, show 1 + 2 ^ (p + 3) + q * 2 ^ (p + 4) = 1 + 2 ^ (p + 3) * (1 + 2 * q) by ring, Nat.add_mul_mod_self_left]
  have hpos : 0 < N := by rw [hN]; positivity
  have h4 : (2 * N - 1) ^ 2 % (2 * N) = 1 % (2 * N) := by
    obtain ⟨q, rfl⟩ : ∃ q, N = q + 1 := ⟨N - 1, by omega⟩
    rw [show 2 * (q + 1) - 1 = 2 * q + 1 by omega, show (2 * q + 1) ^ 2 = 1 + 2 * (q + 1) * (2 * q) by ring, Nat.add_mul_mod_self_left]
  unfold exponent
  rw [Nat.mul_mod, pow_mod_of h3 h, pow_mod_of h4 h', ← Nat.mul_mod]

/-- A number below `2^p`, as a sum of distinct powers of two. -/
theorem binary (p : Nat) : ∀ a, a < 2 ^ p → ∃ l : List Nat, l.length ≤ p ∧ (∀ x ∈ l, x < p) ∧ steps (l.map fun x => columns (2 ^ x)) = a := by
  induction p with
  | zero => intro a ha; exact ⟨[], le_refl _, by simp, by simp at ha; simp [ha, steps]⟩
  | succ p ih =>
    intro a ha
    by_cases h : a < 2 ^ p
    · obtain ⟨l, h1, h2, h3⟩ := ih a h
      exact ⟨l, by omega, fun x hx => by have := h2 x hx; omega, h3⟩
    · rw [pow_succ] at ha
      obtain ⟨l, h1, h2, h3⟩ := ih (a - 2 ^ p) (by omega)
      refine ⟨p :: l, by simpa using h1, fun x hx => ?_, ?_⟩
      · rcases List.mem_cons.1 hx with rfl | hx
        · omega
        · have := h2 x hx; omega
      · show 2 ^ p + steps (l.map fun x => columns (2 ^ x)) = a
        rw [h3]; omega

theorem swaps_columns (l : List Nat) : swaps (l.map fun x => columns (2 ^ x)) = 0 := by
  induction l with
  | nil => rfl
  | cons x l ih => exact ih

end Fhe.Move
