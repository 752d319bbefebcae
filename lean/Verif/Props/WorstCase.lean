import Verif.Lemmas.Drawn
import Verif.Props.Sampling
import Verif.Props.Defaults
import Verif.Props.Capacity
import Verif.Props.BfvPlain
/-!
# Property C92: what decryption returns when the noise is too large, and for which predefined parameters that happens
-/
namespace Fhe.Props
open Nega Poly ParamsBuilder Ciphertext

variable {b : Build} {par : Par} {st : ParamsBuilder} {s : IntPoly par.degree} {sk : SecretKey}

/-- `v / Q`, rounded to the nearest integer, in each coefficient. -/
def IntPoly.round {N : Nat} (v : IntPoly N) (Q : Nat) : IntPoly N := fun j => (2 * v j + Q) / (2 * Q)

/-- C92: with an odd modulus of at most `2⁶¹`, decryption never fails, however large the noise is: it returns the message plus the noise
divided by the modulus, rounded in each coefficient, modulo the plaintext modulus. -/
theorem C92_any_noise (hb : b.OK) (h : build b st = Res.ok par.toBfvParameters) {i : Nat} (hr : par.toBfvParameters.Reliable i) (hk : sk.IsKey par s) (hodd : par.modulusAt i % 2 = 1)
    (h61 : par.modulusAt i ≤ 2 ^ 61) {ct : Ciphertext} {m : par.Msg} {v : IntPoly par.degree} (hct : ct.Encrypts par s i m v) :
    ∃ pt m', sk.tryDecrypt b ct = Res.ok pt ∧ pt.Holds par i m' ∧ ∀ j, m' j = m j + ((IntPoly.round v (par.modulusAt i) j : Int) : ZMod par.plaintext.value) := by
  generalize hQ : par.modulusAt i = Q at *
  let δ := IntPoly.round v Q
  have hct' : ct.Encrypts par s i (m + red par.plaintext.value δ) (v - C (Q : Int) * δ) := by
    obtain ⟨p1, p2, p3, c, F, M, e1, e2, e3, e4⟩ := hct
    refine ⟨p1, p2, p3, c, F, M + δ, e1, e2, fun j => ?_, fun j => ?_⟩
    · rw [Nega.add_apply, Nega.add_apply, ← e3]; push_cast; rfl
    · rw [e4 j, hQ, Nega.add_apply, Nega.sub_apply, C_mul_apply]; ring
  obtain ⟨pt, d1, d2, -⟩ := C37_decrypt hb h hr hk hct' fun j => by
    have hj : (v - C (Q : Int) * δ : IntPoly par.degree) j = v j - Q * ((2 * v j + Q) / (2 * Q)) := by rw [Nega.sub_apply, C_mul_apply]; rfl
    rw [hj, hQ]
    generalize v j = x
    have hQ0 : (0 : Int) < 2 * Q := by omega
    have g1 := Int.mul_ediv_add_emod (2 * x + Q) (2 * Q)
    have g2 := Int.emod_nonneg (2 * x + Q) hQ0.ne'
    have g3 := Int.emod_lt_of_pos (2 * x + Q) hQ0
    generalize (2 * x + Q) / (2 * Q : Int) = k at *
    generalize (2 * x + Q) % (2 * Q : Int) = r at *
    have g4 : 2 * (x - Q * k) = r - Q := by linear_combination -g1
    have g5 : |2 * (x - Q * k)| ≤ Q - 1 := by
      generalize x - Q * k = y at g4 ⊢
      rw [abs_le]
      constructor <;> omega
    rw [abs_mul] at g5
    generalize |x - Q * k| = y at g5 ⊢
    have h61' : (Q : Int) ≤ 2 ^ 61 := by exact_mod_cast h61
    norm_num at g5 h61' ⊢
    linarith
  exact ⟨pt, _, d1, d2, fun j => rfl⟩

/-- All coefficients sampled from some stream are as large as possible. -/
theorem exists_largest {N v : Nat} (h1 : 1 ≤ v) (h2 : v ≤ 32) : ∃ rng, IsStream rng ∧ ∀ j, drawn N v rng j = 2 * v := by
  classical
  have hc := C71_independent (n := N) (W := 2 * N) h1 h2 (by split <;> nlinarith) (t := fun _ => (2 * v : Int)) (fun _ => by omega)
  have hpos : 0 < 2 ^ (64 * (2 * N)) * ∏ _i : Fin N, (4 * v).choose ((2 * v + (2 * v : Int)).toNat) := by
    refine Nat.mul_pos (by positivity) (Finset.prod_pos fun i _ => Nat.choose_pos ?_)
    omega
  rw [← hc] at hpos
  obtain ⟨w, hw⟩ := Finset.card_pos.1 (Nat.pos_of_mul_pos_right hpos)
  obtain ⟨k, hk⟩ := (Finset.mem_filter.1 hw).2
  refine ⟨wordsOf w, fun i => wordsOf_lt w i, fun j => ?_⟩
  unfold drawn
  rw [hk]
  simp [IntPoly.ofList]

/-- The last coefficient of the product of two constant vectors. -/
theorem mul_last {N : Nat} {f g : IntPoly N} {a c : Int} (hf : ∀ j, f j = a) (hg : ∀ j, g j = c) (k : Fin N) (hk : k.val + 1 = N) : (f * g) k = N * (a * c) := by
  rw [Nega.mul_apply]
  have : ∀ i : Fin N, (∑ j : Fin N, if i.val + j.val = k.val then f i * g j else if i.val + j.val = k.val + N then -(f i * g j) else 0) = a * c := by
    intro i
    rw [Finset.sum_eq_single ⟨k.val - i.val, by omega⟩]
    · rw [if_pos (by simp only []; omega), hf, hg]
    · intro j _ hj
      have : i.val + j.val ≠ k.val := fun h => hj (Fin.ext (by simp only []; omega))
      rw [if_neg this, if_neg (by omega)]
    · intro h; exact absurd (Finset.mem_univ _) h
  rw [Finset.sum_congr rfl fun i _ => this i, Finset.sum_const, Finset.card_univ, Fintype.card_fin, nsmul_eq_mul]

/-- C92: if the modulus is odd, at most `2⁶¹`, and at most twice `t 2v (4 v N + 1)`, where `v` is the variance, then there are random choices
with which the keys are generated and zero is encrypted without an error, and decryption returns something else than zero. -/
theorem C92_worst (hb : b.OK) (h : build b st = Res.ok par.toBfvParameters) (hr : par.toBfvParameters.Reliable 0) (hodd : par.modulusAt 0 % 2 = 1) (h61 : par.modulusAt 0 ≤ 2 ^ 61)
    (hover : par.modulusAt 0 ≤ 2 * (par.plaintext.value * (2 * par.variance * (4 * par.variance * par.degree + 1)))) (hunder : 2 * (2 * par.variance * (4 * par.variance * par.degree + 1)) < par.modulusAt 0)
    {g : Prg} (hg : g.OK) {pt : Plaintext} (hpt : pt.Holds par 0 0) (seed : Seed) :
    ∃ rng, IsStream rng ∧ ∃ sk pk ct pt' m', SecretKey.random par rng = some sk ∧ PublicKey.new g sk seed rng = some pk ∧ pk.tryEncrypt pt rng rng rng = Res.ok ct ∧ sk.tryDecrypt b ct = Res.ok pt' ∧
      pt'.Holds par 0 m' ∧ m' ≠ 0 := by
  obtain ⟨n, hw, -⟩ := build_inv hb h
  have hpos := List.length_pos_of_ne_nil hw.ne_nil
  obtain ⟨l, ha⟩ := AtLevel.ofLt (par := par) hw (i := 0) hpos
  have hQ : par.plaintext.value ≤ par.modulusAt 0 := by have := hr.modulus; omega
  have ht : 2 ≤ par.plaintext.value := hw.t_pos
  have ht0 : NeZero par.plaintext.value := ⟨by omega⟩
  obtain ⟨rng, hrng, hmax⟩ := exists_largest (N := par.degree) hw.variance.1 hw.variance.2
  obtain ⟨sk, k1, k2⟩ := SecretKey.random_drawn hw hrng
  obtain ⟨z, hz, hz', -⟩ := C35_zero hb h (e := ⟨.poly, 0⟩) hpos
  obtain ⟨A, hA⟩ := Prg.poly_encI hg ha.wf ha.deg .ntt seed
  have hnew := PublicKey.new_drawn hw ha k2 hQ hA hrng ⟨z, hz, hz'⟩
  have henc := PublicKey.tryEncrypt_drawn (vt := false) (vt' := false) (seed := some seed) (F := drawn par.degree par.variance rng - A * drawn par.degree par.variance rng) (A := A) hw ha hQ hpt hrng hrng hrng
  have hph := phase_drawn (Q := par.modulusAt 0) (s := drawn par.degree par.variance rng) (u := drawn par.degree par.variance rng) (e := drawn par.degree par.variance rng)
    (e1 := drawn par.degree par.variance rng) (e2 := drawn par.degree par.variance rng) (A := A) (0 : par.Msg)
  generalize drawn par.degree par.variance rng = f at *
  generalize hpk : PublicKey.mk par _ = pk at henc hnew
  obtain ⟨ct, hct, henc'⟩ : ∃ ct, pk.tryEncrypt pt rng rng rng = Res.ok ct ∧ ct.Encrypts par f 0 0 (C (par.plaintext.value : Int) * (f * f + f + f * f) - scaleRest (par.modulusAt 0) (0 : par.Msg)) := by
    refine ⟨_, henc, ?_⟩
    exact Encrypts.intro ha rfl rfl le_rfl (.cons ⟨true, rfl⟩ (.cons ⟨true, rfl⟩ .nil)) (red_msgInt 0) hph
  obtain ⟨pt', m', d1, d2, d3⟩ := C92_any_noise hb h hr k2 hodd h61 henc'
  refine ⟨rng, hrng, sk, pk, ct, pt', m', k1, hnew, hct, d1, d2, fun h0 => ?_⟩
  have hN : 0 < par.degree := by rw [hw.degree]; positivity
  have hlast := d3 ⟨par.degree - 1, by omega⟩
  have hnoise : (C (par.plaintext.value : Int) * (f * f + f + f * f) - scaleRest (par.modulusAt 0) (0 : par.Msg) : IntPoly par.degree) ⟨par.degree - 1, by omega⟩ =
      (par.plaintext.value * (2 * par.variance * (4 * par.variance * par.degree + 1)) : Nat) := by
    have hz : scaleRest (par.modulusAt 0) (0 : par.Msg) ⟨par.degree - 1, by omega⟩ = 0 := by
      show ((par.modulusAt 0 * (0 : ZMod par.plaintext.value).val % par.plaintext.value : Nat) : Int) = 0
      simp
    rw [Nega.sub_apply, C_mul_apply, Nega.add_apply, Nega.add_apply, mul_last hmax hmax _ (by simp only []; omega), hmax, hz]
    push_cast
    ring
  unfold IntPoly.round at hlast
  rw [hnoise, h0] at hlast
  generalize 2 * par.variance * (4 * par.variance * par.degree + 1) = c at *
  generalize par.modulusAt 0 = Q at *
  have hQ0 : 0 < Q := by omega
  have hk : (2 * ((par.plaintext.value * c : Nat) : Int) + Q) / (2 * Q) = (((2 * (par.plaintext.value * c) + Q) / (2 * Q) : Nat) : Int) := by push_cast; rfl
  rw [hk, show (0 : par.Msg) ⟨par.degree - 1, by omega⟩ = 0 from rfl, zero_add, Int.cast_natCast, eq_comm, ZMod.natCast_eq_zero_iff] at hlast
  have g1 : 1 ≤ (2 * (par.plaintext.value * c) + Q) / (2 * Q) := by rw [Nat.le_div_iff_mul_le (by omega)]; omega
  have g2 : (2 * (par.plaintext.value * c) + Q) / (2 * Q) < par.plaintext.value := by
    rw [Nat.div_lt_iff_lt_mul (by omega)]
    nlinarith
  exact absurd (Nat.le_of_dvd g1 hlast) (by omega)

variable {bits : Nat} {l : List BfvParameters}

theorem line_1024 {e : Nat × List Nat} (he : e ∈ defaultTable) (h : e.1 = 1024) : e = (1024, [0x7e00001]) := by
  simp only [defaultTable, List.mem_cons, List.not_mem_nil, or_false] at he
  rcases he with rfl | rfl | rfl | rfl | rfl <;> simp_all

theorem line_2048 {e : Nat × List Nat} (he : e ∈ defaultTable) (h : e.1 = 2048) : e = (2048, [0x3fffffff000001]) := by
  simp only [defaultTable, List.mem_cons, List.not_mem_nil, or_false] at he
  rcases he with rfl | rfl | rfl | rfl | rfl <;> simp_all

/-- C92, the first two lines of predefined parameters: for all plaintext moduli of at most 25 bits that the degree 1024 has, and for those of 34 to
52 bits with the degree 2048, there are random choices with which an encryption of zero with the public key decrypts to something else. -/
theorem C92_first_sets (hb : b.OK) (hl : defaultParameters128 b bits = Res.ok l) (hpar : par.toBfvParameters ∈ l) (hcase : par.degree = 1024 ∧ bits ≤ 25 ∨ par.degree = 2048 ∧ 34 ≤ bits ∧ bits ≤ 52)
    {g : Prg} (hg : g.OK) {pt : Plaintext} (hpt : pt.Holds par 0 0) (seed : Seed) :
    ∃ rng, IsStream rng ∧ ∃ sk pk ct pt' m', SecretKey.random par rng = some sk ∧ PublicKey.new g sk seed rng = some pk ∧ pk.tryEncrypt pt rng rng rng = Res.ok ct ∧ sk.tryDecrypt b ct = Res.ok pt' ∧
      pt'.Holds par 0 m' ∧ m' ≠ 0 := by
  obtain ⟨e, he, e1, e2, e3, e4, e5, e6, e7⟩ := ((C31_defaults hb bits).1 l hl).2 _ hpar
  have h := C31_defaults_build hb hl _ hpar
  obtain ⟨n, hw, -⟩ := build_inv hb h
  have hQ0 : par.modulusAt 0 = e.2.prod := by unfold BfvParameters.modulusAt; rw [Nat.sub_zero, List.take_length, e2]
  rcases hcase with ⟨hN, hbits⟩ | ⟨hN, hlow, hbits⟩
  · obtain rfl := line_1024 he (e1.symm.trans hN)
    have ht : par.plaintext.value < 2 ^ 25 := lt_of_lt_of_le e6 (Nat.pow_le_pow_right (by norm_num) hbits)
    have ht' : 2049 ≤ par.plaintext.value := by
      have := e4.two_le
      simp only [] at e7
      by_contra hc
      have : par.plaintext.value % 2048 = 1 := e7
      omega
    have hQ : par.modulusAt 0 = 0x7e00001 := by rw [hQ0]; decide
    exact C92_worst hb h (reliable_of_head hw he e2 (by show _ ≤ 0x7e00001; omega)) (by rw [hQ]) (by rw [hQ]; norm_num) (by rw [hQ, hN, e3]; omega) (by rw [hQ, hN, e3]; norm_num) hg hpt seed
  · obtain rfl := line_2048 he (e1.symm.trans hN)
    have ht : par.plaintext.value < 2 ^ 52 := lt_of_lt_of_le e6 (Nat.pow_le_pow_right (by norm_num) hbits)
    have ht' : 2 ^ 33 ≤ par.plaintext.value := le_trans (Nat.pow_le_pow_right (by norm_num) (by omega)) e5
    have hQ : par.modulusAt 0 = 0x3fffffff000001 := by rw [hQ0]; decide
    exact C92_worst hb h (reliable_of_head hw he e2 (by show _ ≤ 0x3fffffff000001; omega)) (by rw [hQ]) (by rw [hQ]; norm_num) (by rw [hQ, hN, e3]; omega) (by rw [hQ, hN, e3]; norm_num) hg hpt seed

/-- C92, encryption with the secret key: with the degree 1024 and a plaintext modulus of at most 21 bits it always decrypts to the message. -/
theorem C92_secret_key (hb : b.OK) (hl : defaultParameters128 b bits = Res.ok l) (hpar : par.toBfvParameters ∈ l) (hN : par.degree = 1024) (hbits : bits ≤ 21) {g : Prg} (hg : g.OK) (hk : sk.IsKey par s)
    {pt : Plaintext} {m : par.Msg} (hpt : pt.Holds par 0 m) {seed : Seed} (h32 : seed.length = 32) {rng : Nat → Nat} (hr : IsStream rng) :
    ∃ ct pt', sk.tryEncrypt g pt seed rng = Res.ok ct ∧ sk.tryDecrypt b ct = Res.ok pt' ∧ pt'.Holds par 0 m := by
  obtain ⟨e, he, e1, e2, e3, e4, e5, e6, e7⟩ := ((C31_defaults hb bits).1 l hl).2 _ hpar
  have h := C31_defaults_build hb hl _ hpar
  obtain ⟨n, hw, -⟩ := build_inv hb h
  have hQ0 : par.modulusAt 0 = e.2.prod := by unfold BfvParameters.modulusAt; rw [Nat.sub_zero, List.take_length, e2]
  obtain rfl := line_1024 he (e1.symm.trans hN)
  have ht : par.plaintext.value < 2 ^ 21 := lt_of_lt_of_le e6 (Nat.pow_le_pow_right (by norm_num) hbits)
  have hQ : par.modulusAt 0 = 0x7e00001 := by rw [hQ0]; decide
  exact C37_roundtrip hb h (reliable_of_head hw he e2 (by show _ ≤ 0x7e00001; omega)) hk hg (by rw [hQ, e3]; omega) hpt h32 hr

/-- C92, products: with the first two degrees there is no relinearization key. -/
theorem C92_no_products (hb : b.OK) (hl : defaultParameters128 b bits = Res.ok l) (hpar : par.toBfvParameters ∈ l) (hN : par.degree = 1024 ∨ par.degree = 2048) {g : Prg} (hg : g.OK) (hk : sk.IsKey par s)
    (seed : Seed) {rngs : Nat → Nat → Nat} (hr : ∀ i, IsStream (rngs i)) : RelinearizationKey.newLeveled b g sk 0 0 seed rngs = Res.err .keySwitchingNotSupported := by
  obtain ⟨e, he, e1, e2, -⟩ := ((C31_defaults hb bits).1 l hl).2 _ hpar
  have h := C31_defaults_build hb hl _ hpar
  have hlen : par.moduli.length = 1 := by
    rw [e2]
    rcases hN with hN | hN
    · rw [line_1024 he (e1.symm.trans hN)]; rfl
    · rw [line_2048 he (e1.symm.trans hN)]; rfl
  exact (C41_new hb h (by omega) hk hg seed hr (i := 0) (j := 0)).2.1 (by omega) (by omega)

/-- Predefined parameters of degree 1024 with 20 bits: some encryption of zero decrypts to something else. -/
example : ∃ (l : List BfvParameters) (par : Par) (z : Plaintext), defaultParameters128 luckyBuild 20 = Res.ok l ∧ par.toBfvParameters ∈ l ∧ par.degree = 1024 ∧ z.Holds par 0 0 ∧
    ∃ rng, IsStream rng ∧ ∃ sk pk ct pt' m', SecretKey.random par rng = some sk ∧ PublicKey.new exPrg sk (List.replicate 32 7) rng = some pk ∧ pk.tryEncrypt z rng rng rng = Res.ok ct ∧
      sk.tryDecrypt luckyBuild ct = Res.ok pt' ∧ pt'.Holds par 0 m' ∧ m' ≠ 0 := by
  obtain ⟨l, e1, e2⟩ := C31_defaults_lines luckyBuild_ok luckyBuild_lucky (bits := 20) (by decide) (by decide)
    ⟨_, by decide, serves_of (e := (1024, [0x7e00001])) (by decide) (by decide) largest_20_1024 (by decide) (by decide)⟩
  rw [lines_20] at e2
  obtain ⟨par0, h1, h2, -, -, -, h⟩ := default_at luckyBuild_ok luckyBuild_lucky (by decide) (by decide) e1 (k := 0) (by rw [e2]; rfl) largest_20_1024
  obtain ⟨z, -, hz, -⟩ := C35_zero (par := ⟨par0, 0⟩) luckyBuild_ok h (e := ⟨.poly, 0⟩) (by obtain ⟨n, hw, -⟩ := build_inv luckyBuild_ok h; exact List.length_pos_of_ne_nil hw.ne_nil)
  exact ⟨l, ⟨par0, 0⟩, z, e1, List.mem_of_getElem? h1, h2, hz, C92_first_sets (par := ⟨par0, 0⟩) luckyBuild_ok e1 (List.mem_of_getElem? h1) (.inl ⟨h2, by decide⟩) exPrg_ok hz _⟩

end Fhe.Props
