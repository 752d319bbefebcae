import Verif.Lemmas.Typical
import Verif.Props.Examples
import Verif.Spec.Typical
import Mathlib.Analysis.Complex.ExponentialBounds
/-!
# Properties C80 and C65: noise for almost all samples
-/
namespace Fhe.Props
open Fhe Nega Poly ParamsBuilder Ciphertext Finset

variable {b : Build} {par : Par} {st : ParamsBuilder} {s : IntPoly par.degree} {sk : SecretKey} {pk : PublicKey} {g : Prg}

theorem wordsOf_stream {W : Nat} (w : Fin W → Fin (2 ^ 64)) : IsStream (wordsOf w) := fun i => wordsOf_lt w i

/-- C80: a linear combination of the numbers sampled from `W` words exceeds `T` in absolute value for at most a fraction `2 exp(- T² / (2 v S))` of
all words, where `S` bounds the sum of the squares of the coefficients. -/
theorem C80_tail {n v W : Nat} (h1 : 1 ≤ v) (h2 : v ≤ 32) (hW : EnoughWords n v W) (a : Fin n → Int) {S : ℝ} (hS : ∑ i, (a i : ℝ) ^ 2 ≤ S) (hS0 : 0 < S) {T : ℝ} (hT : 0 ≤ T) :
    (Nat.card { w : Fin W → Fin (2 ^ 64) // T ≤ |((∑ i : Fin n, a i * entry n v w i : Int) : ℝ)| } : ℝ) ≤ 2 * Real.exp (-(T ^ 2 / (2 * v * S))) * 2 ^ (64 * W) := by
  classical
  rw [Nat.card_eq_fintype_card, Fintype.card_subtype]
  exact tail_two h1 h2 hW a hS hS0 hT

/-- C80: encryption with a generated public key, for every message and every secret: for all but a fraction `4 N exp(- L)` of the words of two of
its three samples the noise is at most `t (2 T + B + 1)`, where `B` bounds the samples and `T² ≥ 2 v N B² L`. -/
theorem C80_fresh (hb : b.OK) (h : build b st = Res.ok par.toBfvParameters) (hQ : par.plaintext.value ≤ par.modulusAt 0) (hg : g.OK) (hk : sk.IsKey par s) (hs : s.Bounded (2 * par.variance)) {seed : Seed} {rng : Nat → Nat}
    (hr : IsStream rng) (hpk : PublicKey.new g sk seed rng = some pk) {pt : Plaintext} {m : par.Msg} (hpt : pt.Holds par 0 m) {rng1 : Nat → Nat} (hr1 : IsStream rng1) {W L T : Nat}
    (hW : EnoughWords par.degree par.variance W) (hT : 2 * par.variance * par.degree * (2 * par.variance) ^ 2 * L ≤ T ^ 2) :
    (Nat.card { w : Fin 2 → Fin W → Fin (2 ^ 64) // ¬ ∃ (ct : Ciphertext) (v : IntPoly par.degree), pk.tryEncrypt pt (wordsOf (w 0)) rng1 (wordsOf (w 1)) = Res.ok ct ∧ ct.Encrypts par s 0 m v ∧
        v.Bounded (par.plaintext.value * (2 * T + 2 * par.variance + 1)) } : ℝ) ≤ 4 * par.degree * Real.exp (-(L : ℝ)) * (2 ^ (64 * W)) ^ 2 := by
  classical
  obtain ⟨n, hw, -⟩ := build_inv hb h
  have hpos := List.length_pos_of_ne_nil hw.ne_nil
  have hv := hw.variance
  obtain ⟨l, ha⟩ := AtLevel.ofLt (par := par) hw (i := 0) hpos
  obtain ⟨z, hz, hz', -⟩ := C35_zero hb h (e := ⟨.poly, 0⟩) hpos
  obtain ⟨A, hA⟩ := Prg.poly_encI hg ha.wf ha.deg .ntt seed
  have hnew := PublicKey.new_drawn hw ha hk hQ hA hr ⟨z, hz, hz'⟩
  rw [hpk, Option.some_inj] at hnew
  obtain ⟨he, -⟩ := drawn_encI hv.1 hv.2 hr par.degree
  obtain ⟨he1, -⟩ := drawn_encI hv.1 hv.2 hr1 par.degree
  have ht : 0 < par.plaintext.value := by have := hw.t_pos; omega
  have ht0 : NeZero par.plaintext.value := ⟨ht.ne'⟩
  generalize drawn par.degree par.variance rng = e at *
  have hcard : (Fintype.card (Fin W → Fin (2 ^ 64)) : ℝ) = 2 ^ (64 * W) := by
    rw [Fintype.card_fun, Fintype.card_fin, Fintype.card_fin, ← pow_mul]; push_cast; rfl
  have hcard2 : (Fintype.card (Fin 2 → Fin W → Fin (2 ^ 64)) : ℝ) = (2 ^ (64 * W)) ^ 2 := by
    rw [Fintype.card_fun, Fintype.card_fin, Nat.cast_pow, hcard]
  rw [Nat.card_eq_fintype_card, Fintype.card_subtype, ← hcard2]
  refine fresh_count (f := sampled par.degree par.variance) (T := T) (F := e) (F' := s) (c := 2 * par.degree * Real.exp (-(L : ℝ))) ?_ ?_ (fun w a1 a2 => ?_) |>.trans (le_of_eq (by ring))
  · rw [hcard]; exact product_tail hv.1 hv.2 hW he (by omega) hT
  · rw [hcard]; exact product_tail hv.1 hv.2 hW hs (by omega) hT
  have f1 := PublicKey.tryEncrypt_drawn (vt := false) (vt' := false) (seed := some seed) (F := e - A * s) (A := A) hw ha hQ hpt (wordsOf_stream (w 0)) hr1 (wordsOf_stream (w 1))
  rw [← hnew] at f1
  rw [drawn_words, drawn_words] at f1
  have hph := phase_drawn (Q := par.modulusAt 0) (s := s) (u := sampled par.degree par.variance (w 0)) (e := e) (e1 := drawn par.degree par.variance rng1) (e2 := sampled par.degree par.variance (w 1)) (A := A) m
  refine not_not.2 ⟨_, _, f1, Encrypts.intro ha rfl rfl le_rfl (.cons ⟨true, rfl⟩ (.cons ⟨true, rfl⟩ .nil)) (red_msgInt m) hph, ?_⟩
  have h1 := (((mul_comm e _ ▸ a1).add he1).add a2).C_mul (par.plaintext.value : Int)
  rw [Int.natAbs_natCast] at h1
  exact (h1.sub (scaleRest_bounded (par.modulusAt 0) ht m)).mono (le_of_eq (by ring))

/-- C65, `bfv_ops.rs` with its own parameters: for all numbers and vectors, and whatever the other random choices are, the whole program is correct
modulo 1032193 for all but a fraction of at most `2⁻⁶⁴` of the words from which the secret key, the error of the public key and two samples
of the last encryption are made. -/
theorem C65_ops_program (hb : b.OK) (hl : b.Lucky) {g : Prg} (hg : g.OK) :
    ∃ l par0, defaultParameters128 b 20 = Res.ok l ∧ l[2]? = some par0 ∧ par0.degree = 4096 ∧ par0.plaintext.value = 1032193 ∧
      ∀ (addr : Nat) (values weights v1 v2 xs : List Nat) (x : Nat) (r : BfvOps.Random) (W : Nat), values ≠ [] → values.length ≤ 4096 → (∀ x ∈ values, x < 1032193) → weights.length = values.length →
        (∀ x ∈ weights, x < 1032193) → v1 ≠ [] → v1.length ≤ 4096 → (∀ x ∈ v1, x < 1032193) → v2.length = v1.length → (∀ x ∈ v2, x < 1032193) → x < 1032193 → xs.length ≤ 4096 → (∀ x ∈ xs, x < 1032193) → r.OK →
        2560 ≤ W →
        Nat.card { w : Fin 4 → Fin W → Fin (2 ^ 64) // BfvOps.main b g ⟨par0, addr⟩ values weights v1 v2 x xs (r.withWords w) ≠ Res.ok
          { weightedPlain := (List.zipWith (· * ·) values weights).sum % 1032193, weightedSimd := (List.zipWith (· * ·) values weights).sum % 1032193
            innerPlain := (List.zipWith (· * ·) v1 v2).sum % 1032193, innerSimd := (List.zipWith (· * ·) v1 v2).sum % 1032193
            polynomialPlain := (3 * x ^ 2 + 2 * x + 1) % 1032193, polynomialSimd := xs.map fun x => (3 * x ^ 2 + 2 * x + 1) % 1032193 } } * 2 ^ 64 ≤ (2 ^ (64 * W)) ^ 4 := by
  obtain ⟨l, par0, -, e1, ⟨e2, e3, e4, e5, e6, h⟩, -⟩ := default_20 hb hl
  refine ⟨l, par0, e1, e2, e3, e6, fun addr values weights v1 v2 xs x r W a1 a2 a3 a4 a5 a6 a7 a8 a9 a10 a11 a12 a13 hR hW => ?_⟩
  obtain ⟨par, hpar0, rfl⟩ : ∃ par : Par, par.toBfvParameters = par0 ∧ par.addr = addr := ⟨⟨par0, addr⟩, rfl, rfl⟩
  subst hpar0
  have hQ0 : par.modulusAt 0 = 0xffffee001 * 0xffffc4001 * 0x1ffffe0001 := by unfold BfvParameters.modulusAt; rw [e4]; decide
  have hop : par.nttOperator ≠ none := (C34_available hb h).2 hl (by rw [e6]; norm_num) (by rw [e6]; norm_num) (by rw [e6, e3])
  have hr : par.toBfvParameters.Reliable 0 := ⟨by rw [e4]; decide, by rw [e4]; decide, by rw [e6, hQ0]; decide, fun _ q hq => by rw [e4] at hq; cases hq; rw [e6]; decide⟩
  have hQ : par.plaintext.value ≤ par.modulusAt 0 := by have := hr.modulus; omega
  obtain ⟨n, hw, -⟩ := build_inv hb h
  have hpos := List.length_pos_of_ne_nil hw.ne_nil
  obtain ⟨lv, ha⟩ := AtLevel.ofLt (par := par) hw (i := 0) hpos
  obtain ⟨z, hz, hz', -⟩ := C35_zero hb h (e := ⟨.poly, 0⟩) hpos
  obtain ⟨A, hA⟩ := Prg.poly_encI hg ha.wf ha.deg .ntt r.pkSeed
  obtain ⟨G, P, hG, hP, hpoly⟩ := polynomial_typical hb h hr hop (by rw [e6]; decide) (xs := xs) (by rw [e3]; exact a12) (by rw [e6]; exact a13)
  have hGb : ∀ Y, (G Y).Bounded 324516735448483909730848253063936 := fun Y j => by
    have := hG Y j
    rw [hQ0] at this
    norm_num at *
    linarith
  classical
  rw [Nat.card_eq_fintype_card, Fintype.card_subtype]
  have hcount := typical_count (v := par.variance) (W := W) (t := par.plaintext.value) (A := A) (L := 56) (T1 := 1032193 * 2142) (Tu := 1032193 * 2142 * 2142) (Ta := 324516735448483909730848253063936 * 2142) hw.variance.1 hw.variance.2
    (by rw [e3, e5, if_pos (by norm_num)]; omega) hGb (by norm_num) hP (by rw [e6]; norm_num) (by norm_num) (by rw [e3, e5, e6]; norm_num) (by rw [e3, e5]; norm_num) (by rw [e3, e5]; norm_num)
    (p := fun w : Fin 4 → Fin W → Fin (2 ^ 64) => BfvOps.main b g par values weights v1 v2 x xs (r.withWords w) ≠ Res.ok
          { weightedPlain := (List.zipWith (· * ·) values weights).sum % 1032193, weightedSimd := (List.zipWith (· * ·) values weights).sum % 1032193
            innerPlain := (List.zipWith (· * ·) v1 v2).sum % 1032193, innerSimd := (List.zipWith (· * ·) v1 v2).sum % 1032193
            polynomialPlain := (3 * x ^ 2 + 2 * x + 1) % 1032193, polynomialSimd := xs.map fun x => (3 * x ^ 2 + 2 * x + 1) % 1032193 }) (fun w b1 b2 b3 => not_not.2 ?_)
  · rw [e3] at hcount
    have hexp : 5 * (2 * ((4096 : Nat) : ℝ) * Real.exp (-((56 : Nat) : ℝ))) * 2 ^ 64 ≤ 1 := by
      have h1 : (2.7182818283 : ℝ) ^ 56 ≤ Real.exp ((56 : Nat) : ℝ) := by
        rw [show ((56 : Nat) : ℝ) = ((56 : Nat) : ℝ) * 1 by ring, Real.exp_nat_mul]
        exact pow_le_pow_left₀ (by norm_num) Real.exp_one_gt_d9.le 56
      rw [Real.exp_neg, ← div_eq_mul_inv, mul_div_assoc', div_mul_eq_mul_div, div_le_one (Real.exp_pos _)]
      refine le_trans ?_ h1
      norm_num
    have hp : (0 : ℝ) ≤ (2 ^ (64 * W)) ^ 4 := by positivity
    have h2 := mul_le_mul_of_nonneg_right hcount (by norm_num : (0 : ℝ) ≤ 2 ^ 64)
    have h3 := mul_le_mul_of_nonneg_right hexp hp
    rw [one_mul] at h3
    rw [← Nat.cast_le (α := ℝ)]
    push_cast at h2 h3 ⊢
    refine le_trans (le_of_eq ?_) (h2.trans (le_trans (le_of_eq (by ring)) h3))
    congr!
    norm_num
  have hR' : (r.withWords w).OK := ⟨hR.seed, ⟨wordsOf_stream _, wordsOf_stream _, hR.keys.2.2⟩, hR.each, hR.once.1, hR.once.2.1, hR.once.2.2.1, hR.once.2.2.2.1, wordsOf_stream _, hR.once.2.2.2.2.2.1, wordsOf_stream _⟩
  obtain ⟨s, sk, pk, ek, rk, k1, k2, hk, hmain⟩ := C65_ops_of_last hb h (by rw [e4]; decide) hr hop (by rw [e6]; decide) hg (values := values) (weights := weights) (v1 := v1) (v2 := v2) (xs := xs) (x := x)
    (by rw [e3, e6]; exact ⟨a1, a2, a3⟩) (by rw [e6]; exact ⟨a4, a5⟩) (by rw [e3, e6]; exact ⟨a6, a7, a8⟩) (by rw [e6]; exact ⟨a9, a10⟩) (by rw [e6]; exact a11)
    (Room.mono (Nat.mul_le_mul_right _ a2) (by unfold Room freshNoise; simp only []; rw [hQ0, e3, e5, e6]; decide)) (by unfold Room freshNoise switchNoise; simp only []; rw [hQ0, e3, e4, e5, e6]; decide)
    (Room.mono (Nat.mul_le_mul_right _ a7) (by unfold Room freshProduct mulNoise mulHeight freshNoise switchNoise; simp only []; rw [hQ0, e3, e4, e5, e6]; decide +kernel))
    (by unfold Room freshProduct mulNoise mulHeight freshNoise switchNoise; simp only []; rw [hQ0, e3, e4, e5, e6]; decide +kernel)
    (by unfold Room freshProduct mulNoise mulHeight freshNoise switchNoise; simp only []; rw [hQ0, e3, e4, e5, e6]; decide +kernel) hR'
  rw [e6] at hmain
  obtain ⟨sk', r1, r2⟩ := SecretKey.random_drawn hw hR'.keys.1
  rw [k1, Option.some_inj] at r1
  subst r1
  obtain rfl : s = drawn par.degree par.variance (wordsOf (w 0)) := hk.secret.poly.trans r2.poly.symm
  rw [show (r.withWords w).pkSeed = r.pkSeed from rfl, PublicKey.new_drawn hw ha hk.secret hQ hA hR'.keys.2.1 ⟨z, hz, hz'⟩, Option.some_inj] at k2
  obtain ⟨he, -⟩ := drawn_encI hw.variance.1 hw.variance.2 hR'.keys.2.1 par.degree
  rw [← drawn_words, ← drawn_words] at b1 b2
  rw [← drawn_words, ← drawn_words, ← drawn_words] at b3
  obtain ⟨ct, f1, f2⟩ := hpoly (Qc := 324516735448483909730848253063936) (EB := 324516735448483900864436163618957) (HM := 1105994800) (W := 89409944504932586349791517142893) (r := (r.withWords w).xs) ha hw hk k2.symm hR'.once.2.2.2.2 he b1 b2 b3 rfl rfl
    (by rw [hQ0]; norm_num) (by rw [hQ0]; norm_num) (by unfold freshNoise; simp only []; rw [hQ0, e3, e5, e6]; decide +kernel) (by unfold freshNoise; simp only []; rw [hQ0, e3, e5, e6]; decide +kernel)
    (by unfold Room freshNoise switchNoise; simp only []; rw [hQ0, e3, e4, e5, e6]; decide +kernel)
  rw [e6] at f2
  exact hmain ct _ f1 f2

/-- With 4 words of 64 bits, the sum of 8 numbers of variance 7 is 30 or more in absolute value for at most a fraction `2 exp(- 900 / 112)` of the
choices, although it can be 112. -/
example : (Nat.card { w : Fin 4 → Fin (2 ^ 64) // (30 : ℝ) ≤ |((∑ i : Fin 8, 1 * entry 8 7 w i : Int) : ℝ)| } : ℝ) ≤ 2 * Real.exp (-((30 : ℝ) ^ 2 / (2 * (7 : Nat) * 8))) * 2 ^ (64 * 4) :=
  C80_tail (by norm_num) (by norm_num) (by unfold EnoughWords; norm_num) (fun _ => 1) (by norm_num) (by norm_num) (by norm_num)

/-- Keys of the example parameters: the noise of an encryption of zero is at most `t (2 T + B + 1)` for `T² ≥ 8 v³ N L`, but for a small fraction of the words. -/
example : ∃ (par : Par) (sk : SecretKey) (s : IntPoly par.degree) (pk : PublicKey) (pt : Plaintext) (m : par.Msg), par.degree = 8 ∧ sk.IsKey par s ∧ PublicKey.new exPrg sk (List.replicate 32 7) exRng = some pk ∧
    pt.Holds par 0 m ∧ ∀ W L T : Nat, EnoughWords par.degree par.variance W → 2 * par.variance * par.degree * (2 * par.variance) ^ 2 * L ≤ T ^ 2 →
    (Nat.card { w : Fin 2 → Fin W → Fin (2 ^ 64) // ¬ ∃ (ct : Ciphertext) (v : IntPoly par.degree), pk.tryEncrypt pt (wordsOf (w 0)) exRng (wordsOf (w 1)) = Res.ok ct ∧ ct.Encrypts par s 0 m v ∧
        v.Bounded (par.plaintext.value * (2 * T + 2 * par.variance + 1)) } : ℝ) ≤ 4 * par.degree * Real.exp (-(L : ℝ)) * (2 ^ (64 * W)) ^ 2 := by
  obtain ⟨par, h, hd, ht, hm, -, h0, h1, h2⟩ := exParams
  obtain ⟨sk, s, -, a2, a3⟩ := C37_secret_key (par := par) luckyBuild_ok h exRng_ok
  obtain ⟨pk, -, p1, -⟩ := C37_public_key (par := par) luckyBuild_ok h a2 exPrg_ok (seed := List.replicate 32 7) (by simp) exRng_ok
  obtain ⟨pt, -, h', -⟩ := C35_zero (par := par) luckyBuild_ok h (e := ⟨.poly, 0⟩) (by rw [hm]; decide)
  exact ⟨par, sk, s, pk, pt, _, hd, a2, p1, h', fun W L T hW hT => C80_fresh luckyBuild_ok h (by rw [h0, ht]; norm_num) exPrg_ok a2 a3 exRng_ok p1 h' exRng_ok hW hT⟩

/-- `bfv_ops.rs` with its own numbers and parameters. -/
example : ∃ l par0, defaultParameters128 luckyBuild 20 = Res.ok l ∧ l[2]? = some par0 ∧
    Nat.card { w : Fin 4 → Fin 2560 → Fin (2 ^ 64) // BfvOps.main luckyBuild exPrg ⟨par0, 0⟩ [1, 2, 3] [4, 5, 6] [1, 2, 3] [4, 5, 6] 5 [1, 2, 3, 4]
      (BfvOps.Random.withWords ⟨exRng, List.replicate 32 7, exRng, fun _ => List.replicate 32 8, fun _ _ => exRng, List.replicate 32 9, fun _ => exRng,
        fun _ => exEncrypt, exEncrypt, fun _ => exEncrypt, fun _ => exEncrypt, exEncrypt, exEncrypt, exEncrypt, exEncrypt⟩ w) ≠ Res.ok ⟨32, 32, 32, 32, 86, [6, 17, 34, 57]⟩ } * 2 ^ 64 ≤ (2 ^ (64 * 2560)) ^ 4 := by
  obtain ⟨l, par0, e1, e2, -, -, h⟩ := C65_ops_program luckyBuild_ok luckyBuild_lucky exPrg_ok
  exact ⟨l, par0, e1, e2, h 0 _ _ _ _ _ _ _ _ (by decide) (by decide) (by decide) rfl (by decide) (by decide) (by decide) (by decide) rfl (by decide) (by decide) (by decide) (by decide)
    ⟨by simp, ⟨exRng_ok, exRng_ok, fun _ _ => exRng_ok, fun _ => exRng_ok⟩, fun _ => ⟨exEncrypt_ok, exEncrypt_ok, exEncrypt_ok⟩, exEncrypt_ok, exEncrypt_ok, exEncrypt_ok, exEncrypt_ok, exEncrypt_ok⟩ le_rfl⟩

end Fhe.Props
