import Verif.Props.Typical
import Verif.Props.WorstCase
/-!
# Property C92: encryption with predefined parameters of degree 2048, for almost all random choices
-/
namespace Fhe.Props
open Nega Poly ParamsBuilder

variable {b : Build} {par : Par} {bits : Nat} {l : List BfvParameters}

theorem exp_hundred {N : Nat} (hN : N ≤ 2048) : 4 * (N : ℝ) * Real.exp (-((100 : Nat) : ℝ)) * 2 ^ 128 ≤ 1 := by
  have h1 : (2.7182818283 : ℝ) ^ 100 ≤ Real.exp ((100 : Nat) : ℝ) := by
    rw [show ((100 : Nat) : ℝ) = ((100 : Nat) : ℝ) * 1 by ring, Real.exp_nat_mul]
    exact pow_le_pow_left₀ (by norm_num) Real.exp_one_gt_d9.le 100
  have hN' : (N : ℝ) ≤ 2048 := by exact_mod_cast hN
  rw [Real.exp_neg, ← div_eq_mul_inv, div_mul_eq_mul_div, div_le_one (Real.exp_pos _)]
  refine le_trans (mul_le_mul_of_nonneg_right (mul_le_mul_of_nonneg_left hN' (by norm_num)) (by norm_num)) (le_trans ?_ h1)
  norm_num

/-- C92, for almost all random choices: with predefined parameters of degree 2048 and at most 36 bits, an
encryption of any message with the public key decrypts to the message, for every secret key, every public key and every choice of one of the three
samples, for all but a fraction `2⁻¹²⁸` of the words of the other two. -/
theorem C92_typical (hb : b.OK) (hl : defaultParameters128 b bits = Res.ok l) (hpar : par.toBfvParameters ∈ l) (hN : par.degree = 2048) (hbits : bits ≤ 36)
    {g : Prg} (hg : g.OK) {sk : SecretKey} {rng rng' : Nat → Nat} (hr : IsStream rng) (hsk : SecretKey.random par rng = some sk) {pk : PublicKey} {seed : Seed} (hr' : IsStream rng')
    (hpk : PublicKey.new g sk seed rng' = some pk) {pt : Plaintext} {m : par.Msg} (hpt : pt.Holds par 0 m) {rng1 : Nat → Nat} (hr1 : IsStream rng1) {W : Nat} (hW : 40 * par.degree ≤ 64 * W) :
    Nat.card { w : Fin 2 → Fin W → Fin (2 ^ 64) // ¬ ∃ ct pt', pk.tryEncrypt pt (wordsOf (w 0)) rng1 (wordsOf (w 1)) = Res.ok ct ∧ sk.tryDecrypt b ct = Res.ok pt' ∧ pt'.Holds par 0 m } * 2 ^ 128
      ≤ (2 ^ (64 * W)) ^ 2 := by
  obtain ⟨e, he, e1, e2, e3, e4, e5, e6, e7⟩ := ((C31_defaults hb bits).1 l hl).2 _ hpar
  have h := C31_defaults_build hb hl _ hpar
  obtain ⟨n, hw, -⟩ := build_inv hb h
  have hQ0 : par.modulusAt 0 = e.2.prod := by unfold BfvParameters.modulusAt; rw [Nat.sub_zero, List.take_length, e2]
  obtain ⟨sk', s, a1, a2, a3⟩ := C37_secret_key (par := par) hb h hr
  obtain rfl : sk = sk' := Option.some.inj (hsk.symm.trans a1)
  obtain ⟨T, t1, t2, t3, t4⟩ : ∃ T, 2 * 10 * par.degree * (2 * 10) ^ 2 * 100 ≤ T ^ 2 ∧ 2 ^ 62 * (par.plaintext.value * (2 * T + 2 * 10 + 1)) ≤ (2 ^ 61 - 1) * par.modulusAt 0 ∧
      2 * par.plaintext.value ≤ e.2.headD 0 ∧ par.plaintext.value ≤ par.modulusAt 0 := by
    obtain rfl := line_2048 he (e1.symm.trans hN)
    have ht : par.plaintext.value < 2 ^ 36 := lt_of_lt_of_le e6 (Nat.pow_le_pow_right (by norm_num) hbits)
    have hQ : par.modulusAt 0 = 0x3fffffff000001 := by rw [hQ0]; decide
    rw [hQ, hN]
    exact ⟨40478, by norm_num, by omega, by show _ ≤ 0x3fffffff000001; omega, by omega⟩
  have hrel := reliable_of_head hw he e2 t3
  have hfr := C80_fresh hb h t4 hg a2 a3 hr' hpk hpt hr1 (W := W) (L := 100) (T := T) (by unfold EnoughWords; rw [e3, if_pos (by norm_num)]; omega) (by rw [e3]; exact t1)
  have hle : Nat.card { w : Fin 2 → Fin W → Fin (2 ^ 64) // ¬ ∃ ct pt', pk.tryEncrypt pt (wordsOf (w 0)) rng1 (wordsOf (w 1)) = Res.ok ct ∧ sk.tryDecrypt b ct = Res.ok pt' ∧ pt'.Holds par 0 m } ≤
      Nat.card { w : Fin 2 → Fin W → Fin (2 ^ 64) // ¬ ∃ (ct : Ciphertext) (v : IntPoly par.degree), pk.tryEncrypt pt (wordsOf (w 0)) rng1 (wordsOf (w 1)) = Res.ok ct ∧ ct.Encrypts par s 0 m v ∧
        v.Bounded (par.plaintext.value * (2 * T + 2 * par.variance + 1)) } := by
    refine Nat.card_le_card_of_injective (fun w => ⟨w.1, fun ⟨ct, v, q1, q2, q3⟩ => w.2 ?_⟩) fun x y hxy => Subtype.ext (congrArg (fun z => z.1) hxy)
    rw [e3] at q3
    obtain ⟨pt', d1, d2, -⟩ := C37_decrypt hb h hrel a2 q2 (small_of_bounded q3 t2)
    exact ⟨ct, pt', q1, d1, d2⟩
  have hp : (0 : ℝ) ≤ (2 ^ (64 * W)) ^ 2 := by positivity
  have h2 := mul_le_mul_of_nonneg_right ((Nat.cast_le (α := ℝ).2 hle).trans hfr) (by norm_num : (0 : ℝ) ≤ 2 ^ 128)
  have h3 := mul_le_mul_of_nonneg_right (exp_hundred hN.le) hp
  rw [one_mul] at h3
  rw [← Nat.cast_le (α := ℝ)]
  push_cast at h2 h3 ⊢
  linarith

/-- Predefined parameters of degree 2048 with 20 bits. -/
example : ∃ (l : List BfvParameters) (par : Par) (sk : SecretKey) (pk : PublicKey) (z : Plaintext), defaultParameters128 luckyBuild 20 = Res.ok l ∧ par.toBfvParameters ∈ l ∧ par.degree = 2048 ∧
    SecretKey.random par exRng = some sk ∧ PublicKey.new exPrg sk (List.replicate 32 7) exRng = some pk ∧ z.Holds par 0 0 ∧
    Nat.card { w : Fin 2 → Fin 1280 → Fin (2 ^ 64) // ¬ ∃ ct pt', pk.tryEncrypt z (wordsOf (w 0)) exRng (wordsOf (w 1)) = Res.ok ct ∧ sk.tryDecrypt luckyBuild ct = Res.ok pt' ∧ pt'.Holds par 0 0 } * 2 ^ 128
      ≤ (2 ^ (64 * 1280)) ^ 2 := by
  obtain ⟨l, e1, e2⟩ := C31_defaults_lines luckyBuild_ok luckyBuild_lucky (bits := 20) (by decide) (by decide)
    ⟨_, by decide, serves_of (e := (1024, [0x7e00001])) (by decide) (by decide) largest_20_1024 (by decide) (by decide)⟩
  rw [lines_20] at e2
  obtain ⟨par0, h1, h2, -, -, -, h⟩ := default_at luckyBuild_ok luckyBuild_lucky (by decide) (by decide) e1 (k := 1) (by rw [e2]; rfl) largest_20_2048
  obtain ⟨z, -, hz, -⟩ := C35_zero (par := ⟨par0, 0⟩) luckyBuild_ok h (e := ⟨.poly, 0⟩) (by obtain ⟨n, hw, -⟩ := build_inv luckyBuild_ok h; exact List.length_pos_of_ne_nil hw.ne_nil)
  obtain ⟨sk, s, a1, a2, -⟩ := C37_secret_key (par := ⟨par0, 0⟩) luckyBuild_ok h exRng_ok
  obtain ⟨pk, -, p1, -⟩ := C37_public_key (par := ⟨par0, 0⟩) luckyBuild_ok h a2 exPrg_ok (seed := List.replicate 32 7) (by simp) exRng_ok
  exact ⟨l, ⟨par0, 0⟩, sk, pk, z, e1, List.mem_of_getElem? h1, h2, a1, p1, hz, C92_typical (par := ⟨par0, 0⟩) luckyBuild_ok e1 (List.mem_of_getElem? h1) h2 (by decide) exPrg_ok exRng_ok a1 exRng_ok p1 hz
    exRng_ok (by rw [show (⟨par0, 0⟩ : Par).degree = 2048 from h2])⟩

end Fhe.Props
