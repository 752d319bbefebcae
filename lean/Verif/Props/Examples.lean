import Verif.Lemmas.Examples
import Verif.Lemmas.ExamplesParams
/-!
# Property C65: the introductory examples
-/
namespace Fhe.Props
open Nega Poly ParamsBuilder Ciphertext

variable {b : Build} {par : Par} {st : ParamsBuilder} {s : IntPoly par.degree} {sk : SecretKey} {pk : PublicKey} {ek : EvaluationKey} {rk : RelinearizationKey}

/-- The keys that the examples generate. -/
theorem C65_keys (hb : b.OK) (h : build b st = Res.ok par.toBfvParameters) (hlen : 2 ≤ par.moduli.length) (hcount : par.moduli.length ≤ 31) {g : Prg} (hg : g.OK) {r : BfvOps.Random}
    (h32 : r.pkSeed.length = 32) (h1 : IsStream r.secret) (h2 : IsStream r.pk) (h3 : ∀ x i, IsStream (r.galois x i)) (h4 : ∀ i, IsStream (r.rk i)) :
    ∃ s sk pk bd bd' ek rk, SecretKey.random par r.secret = some sk ∧ PublicKey.new g sk r.pkSeed r.pk = some pk ∧ EvaluationKeyBuilder.newLeveled b sk 0 0 = Res.ok bd ∧ bd.enableInnerSum = Res.ok bd' ∧
      bd'.build b g r.galoisSeeds r.galois = Res.ok ek ∧ RelinearizationKey.newLeveled b g sk 0 0 r.rkSeed r.rk = Res.ok rk ∧ ExampleKeys par s sk pk ek rk := by
  obtain ⟨n, hw, -⟩ := build_inv hb h
  obtain ⟨l, hl⟩ := AtLevel.ofLt hw (List.length_pos_of_ne_nil hw.ne_nil)
  obtain ⟨sk, s, a1, a2, a3⟩ := C37_secret_key (par := par) hb h h1
  obtain ⟨pk, v, p1, p2, p3, p4, p5, -⟩ := C37_public_key hb h a2 hg h32 h2
  obtain ⟨bd, bd', k, e1, e2, e3, e4, -, e5, -, -, -, e6, -⟩ := C50_build hb h (by omega) a2 hg (i := 0) (j := 0) (by omega) (le_refl _) [.innerSum] r.galoisSeeds h3
  obtain ⟨rk, f1, f2, f3⟩ := (C41_new hb h (by omega) a2 hg r.rkSeed h4 (i := 0) (j := 0)).1 (by omega) (le_refl _) (by omega)
  rw [Nat.sub_zero, List.take_length] at f3
  have e5' := e5 (by omega) (2 * par.variance)
  rw [Nat.sub_zero, List.take_length, Nat.sub_self, Nat.zero_mul, Nat.zero_mul, Nat.add_zero, Nat.div_self hl.pos, Nat.mul_one, Nat.mul_div_cancel_left _ (by norm_num)] at e5'
  refine ⟨s, sk, pk, bd, bd', k, rk, a1, p1, e1, ?_, e3, f1, ⟨a2, a3, ⟨v, p2, p3, p5, p4⟩, e4, e6 (by simp), e5', f2, f3⟩⟩
  have e2' : some { bd with innerSum := true } = some bd' := e2
  rw [← Option.some.inj e2']; rfl

/-- C65, `weighted_sum_plain`: the weighted sum of encrypted numbers, modulo the plaintext modulus. -/
theorem C65_weighted_plain (hb : b.OK) (h : build b st = Res.ok par.toBfvParameters) (hr : par.toBfvParameters.Reliable 0) (h64 : par.plaintext.value < 2 ^ 64) (hk : ExampleKeys par s sk pk ek rk)
    {values weights : List Nat} (hne : values ≠ []) (hlen : weights.length = values.length) (hv : ∀ x ∈ values, x < par.plaintext.value) (hw : ∀ x ∈ weights, x < par.plaintext.value)
    (hroom : Room par (values.length * (par.plaintext.value * freshNoise par))) {r : Nat → EncryptRandom} (hR : ∀ k, EncryptRandom.OK (r k)) :
    ∃ cts, encryptEach pk par values r = Res.ok cts ∧
      BfvOps.weightedSumPlain b cts weights par sk = Res.ok ((List.zipWith (· * ·) values weights).sum % par.plaintext.value) := by
  obtain ⟨n, hwf, -⟩ := build_inv hb h
  have hpos : 0 < par.degree := by rw [hwf.degree]; positivity
  have hQ : par.plaintext.value ≤ par.modulusAt 0 := by have := hr.modulus; omega
  obtain ⟨cts, e1, e2⟩ := encryptEach_eq hb h hk.small hk.encryption hQ h64 hv hR
  refine ⟨cts, e1, ?_⟩
  have hl : cts.length = values.length := e2.length_eq
  obtain ⟨R, w, f1, f2, f3, f4⟩ := fold_sum (V := par.plaintext.value * freshNoise par) (s := s) hb h (l := cts.zip weights) (ms := List.zipWith (fun x y : Nat => C (x : ZMod par.plaintext.value) * C (y : ZMod par.plaintext.value)) values weights)
    (F := fun acc p => do let ptW ← Plaintext.tryEncodeU64 [p.2] ⟨.poly, 0⟩ par false; lift (acc.add (← lift (p.1.mulPlain ptW))))
    (by intro h0; have := congrArg List.length h0; rw [List.length_zip, hl, hlen, Nat.min_self] at this; exact hne (List.length_eq_zero_iff.1 this))
    (by
      refine forall₂_zip e2 (forall₂_self hw) ?_
      rintro ct w x _ ⟨v, g1, g2, g3⟩ ⟨rfl, hw⟩
      obtain ⟨pt, p1, p2⟩ := encode_const hb h hQ hw (by omega)
      obtain ⟨c, u, m1, m2, m3, m4⟩ := mul_const hb h g1 g2 g3 hw p2
      exact ⟨c, u, fun acc => by simp only []; rw [p1, Res.ok_bind, m1, Res.lift_some, Res.ok_bind], m2, m3, m4.mono (Nat.mul_le_mul_right _ hw.le)⟩)
  rw [sum_const] at f2
  have hle : (cts.zip weights).length = values.length := by rw [List.length_zip, hl, hlen, Nat.min_self]
  rw [hle] at f4
  obtain ⟨l, d1, d2⟩ := decryptDecode_poly hb h hr h64 hk.secret f2 f4 hroom (coeff_C hpos _)
  unfold BfvOps.weightedSumPlain
  rw [f1, Res.ok_bind, d1, Res.ok_bind, d2]; rfl

/-- C65, `weighted_sum_simd`: the weighted sum of encrypted numbers, one in each slot. -/
theorem C65_weighted_simd (hb : b.OK) (h : build b st = Res.ok par.toBfvParameters) (hr : par.toBfvParameters.Reliable 0) (hop : par.nttOperator ≠ none) (hk : ExampleKeys par s sk pk ek rk)
    {values weights : List Nat} (hlen : weights.length = values.length) (hN : values.length ≤ par.degree) (hv : ∀ x ∈ values, x < par.plaintext.value) (hw : ∀ x ∈ weights, x < par.plaintext.value)
    (hroom : Room par (par.degree * (par.degree * freshNoise par * par.plaintext.value) + (par.degree - 1) * switchNoise par)) {r : EncryptRandom} (hR : EncryptRandom.OK r) :
    ∃ ct pt, encodeEncrypt pk par values .simd r = Res.ok ct ∧ Plaintext.tryEncodeU64 weights ⟨.simd, 0⟩ par false = Res.ok pt ∧
      BfvOps.weightedSumSimd b ct pt ek sk = Res.ok ((List.zipWith (· * ·) values weights).sum % par.plaintext.value) := by
  obtain ⟨n, hwf, -⟩ := build_inv hb h
  have hpos : 0 < par.degree := by rw [hwf.degree]; positivity
  have hQ : par.plaintext.value ≤ par.modulusAt 0 := by have := hr.modulus; omega
  obtain ⟨ζ, z1, z2, z3, z4, z5⟩ := slot_tools hb h hop hQ
  obtain ⟨m, pt, a1, a2, a3⟩ := z1 values hN hv
  obtain ⟨m', pt', b1, b2, b3⟩ := z1 weights (by omega) hw
  obtain ⟨ct, w, f1, f2, f3, f4⟩ := fresh hb h hk.small hk.encryption hQ a3 hR
  obtain ⟨c, u, g1, g2, g3, g4⟩ := mul_any hb h f2 f3 f4 b3
  obtain ⟨c', u', i1, i2, i3, i4, -⟩ := C43_inner_sum hb h hk.evaluation hk.small hk.error g2 g3 g4 hk.sums
  obtain ⟨p, d1, d2, d3⟩ := decrypt_room hb h hr hk.secret i2 i4 hroom
  refine ⟨ct, pt', by unfold encodeEncrypt; rw [a2, Res.ok_bind, f1], b2, ?_⟩
  unfold BfvOps.weightedSumSimd BfvOps.decryptDecode
  rw [g1, Res.lift_some, Res.ok_bind, i1, Res.ok_bind, d1, Res.ok_bind, z2 p 0 _ d2 d3, Res.ok_bind, List.getElem?_eq_getElem (by simpa using hpos), Res.lift_some]
  simp only [List.getElem_ofFn]
  rw [z5 _ _ hpos, Finset.sum_congr rfl fun c hc => by rw [z4, a1 c (Finset.mem_range.1 hc), b1 c (Finset.mem_range.1 hc)], sum_slots _ _ hN, ZMod.val_natCast]

/-- C65, the inner product of two encrypted vectors, one ciphertext for each number. -/
theorem C65_inner_plain (hb : b.OK) (h : build b st = Res.ok par.toBfvParameters) (hr : par.toBfvParameters.Reliable 0) (h64 : par.plaintext.value < 2 ^ 64) (hk : ExampleKeys par s sk pk ek rk)
    {v1 v2 : List Nat} (hne : v1 ≠ []) (hlen : v2.length = v1.length) (hv1 : ∀ x ∈ v1, x < par.plaintext.value) (hv2 : ∀ x ∈ v2, x < par.plaintext.value)
    (hroom : Room par (v1.length * freshProduct par)) {r1 r2 : Nat → EncryptRandom} (hR1 : ∀ k, EncryptRandom.OK (r1 k)) (hR2 : ∀ k, EncryptRandom.OK (r2 k)) :
    ∃ ct1 ct2, encryptEach pk par v1 r1 = Res.ok ct1 ∧ encryptEach pk par v2 r2 = Res.ok ct2 ∧
      BfvOps.innerProductPlain b ct1 ct2 rk par sk = Res.ok ((List.zipWith (· * ·) v1 v2).sum % par.plaintext.value) := by
  obtain ⟨n, hwf, -⟩ := build_inv hb h
  have hpos : 0 < par.degree := by rw [hwf.degree]; positivity
  have hQ : par.plaintext.value ≤ par.modulusAt 0 := by have := hr.modulus; omega
  obtain ⟨ct1, e1, e2⟩ := encryptEach_eq hb h hk.small hk.encryption hQ h64 hv1 hR1
  obtain ⟨ct2, e1', e2'⟩ := encryptEach_eq hb h hk.small hk.encryption hQ h64 hv2 hR2
  refine ⟨ct1, ct2, e1, e1', ?_⟩
  have hle : (ct1.zip ct2).length = v1.length := by rw [List.length_zip, e2.length_eq, e2'.length_eq, hlen, Nat.min_self]
  obtain ⟨R, w, f1, f2, f3, f4⟩ := fold_sum (V := freshProduct par) (s := s) hb h (l := ct1.zip ct2) (ms := List.zipWith (fun x y : Nat => C (x : ZMod par.plaintext.value) * C (y : ZMod par.plaintext.value)) v1 v2)
    (F := fun acc p => do let prod ← lift (p.1.mul p.2); let prod ← rk.relinearizes prod; lift (acc.add prod))
    (by intro h0; rw [h0] at hle; exact hne (List.length_eq_zero_iff.1 hle.symm))
    (by
      refine forall₂_zip e2 e2' ?_
      rintro c c' x y ⟨v, g1, g2, g3⟩ ⟨v', g1', g2', g3'⟩
      obtain ⟨p, q, u, m1, m2, m3, m4, m5⟩ := mul_relin hb h hr.count hr.sum hk.small hk.relinearization hk.digits g1 g1' g2 g2' g3 g3'
      exact ⟨q, u, fun acc => by simp only []; rw [m1, Res.lift_some, Res.ok_bind, m2, Res.ok_bind], m3, m4, m5⟩)
  rw [sum_const] at f2
  rw [hle] at f4
  obtain ⟨l, d1, d2⟩ := decryptDecode_poly hb h hr h64 hk.secret f2 f4 hroom (coeff_C hpos _)
  unfold BfvOps.innerProductPlain
  rw [f1, Res.ok_bind, d1, Res.ok_bind, d2]; rfl

/-- C65, the inner product of two encrypted vectors, one number in each slot. -/
theorem C65_inner_simd (hb : b.OK) (h : build b st = Res.ok par.toBfvParameters) (hr : par.toBfvParameters.Reliable 0) (hop : par.nttOperator ≠ none) (hk : ExampleKeys par s sk pk ek rk)
    {v1 v2 : List Nat} (hN1 : v1.length ≤ par.degree) (hN2 : v2.length ≤ par.degree) (hv1 : ∀ x ∈ v1, x < par.plaintext.value) (hv2 : ∀ x ∈ v2, x < par.plaintext.value)
    (hroom : Room par (par.degree * freshProduct par + (par.degree - 1) * switchNoise par)) {r1 r2 : EncryptRandom} (hR1 : EncryptRandom.OK r1) (hR2 : EncryptRandom.OK r2) :
    ∃ ct1 ct2, encodeEncrypt pk par v1 .simd r1 = Res.ok ct1 ∧ encodeEncrypt pk par v2 .simd r2 = Res.ok ct2 ∧
      BfvOps.innerProductSimd b ct1 ct2 rk ek sk = Res.ok ((List.zipWith (· * ·) v1 v2).sum % par.plaintext.value) := by
  obtain ⟨n, hwf, -⟩ := build_inv hb h
  have hpos : 0 < par.degree := by rw [hwf.degree]; positivity
  have hQ : par.plaintext.value ≤ par.modulusAt 0 := by have := hr.modulus; omega
  obtain ⟨ζ, z1, z2, z3, z4, z5⟩ := slot_tools hb h hop hQ
  obtain ⟨m, pt, a1, a2, a3⟩ := z1 v1 hN1 hv1
  obtain ⟨m', pt', b1, b2, b3⟩ := z1 v2 hN2 hv2
  obtain ⟨ct, w, f1, f2, f3, f4⟩ := fresh hb h hk.small hk.encryption hQ a3 hR1
  obtain ⟨ct', w', f1', f2', f3', f4'⟩ := fresh hb h hk.small hk.encryption hQ b3 hR2
  obtain ⟨p, q, u, g1, g2, g3, g4, g5⟩ := mul_relin hb h hr.count hr.sum hk.small hk.relinearization hk.digits f2 f2' f3 f3' f4 f4'
  obtain ⟨c', u', i1, i2, i3, i4, -⟩ := C43_inner_sum hb h hk.evaluation hk.small hk.error g3 g4 g5 hk.sums
  obtain ⟨pd, d1, d2, d3⟩ := decrypt_room hb h hr hk.secret i2 i4 hroom
  refine ⟨ct, ct', by unfold encodeEncrypt; rw [a2, Res.ok_bind, f1], by unfold encodeEncrypt; rw [b2, Res.ok_bind, f1'], ?_⟩
  unfold BfvOps.innerProductSimd BfvOps.decryptDecode
  rw [g1, Res.lift_some, Res.ok_bind, g2, Res.ok_bind, i1, Res.ok_bind, d1, Res.ok_bind, z2 pd 0 _ d2 d3, Res.ok_bind, List.getElem?_eq_getElem (by simpa using hpos), Res.lift_some]
  simp only [List.getElem_ofFn]
  rw [z5 _ _ hpos, Finset.sum_congr rfl fun c hc => by rw [z4, a1 c (Finset.mem_range.1 hc), b1 c (Finset.mem_range.1 hc)], sum_slots _ _ hN1, ZMod.val_natCast]

/-- C65, the polynomial `3 x² + 2 x + 1` of an encrypted number. -/
theorem C65_polynomial_plain (hb : b.OK) (h : build b st = Res.ok par.toBfvParameters) (hr : par.toBfvParameters.Reliable 0) (h64 : par.plaintext.value < 2 ^ 64) (h3 : 3 < par.plaintext.value)
    (hk : ExampleKeys par s sk pk ek rk) {x : Nat} (hx : x < par.plaintext.value) (hroom : Room par (3 * freshProduct par + 2 * freshNoise par + par.plaintext.value)) {r : EncryptRandom} (hR : EncryptRandom.OK r) :
    ∃ ct, encodeEncrypt pk par [x] .poly r = Res.ok ct ∧ BfvOps.polynomialPlain b ct rk par sk = Res.ok ((3 * x ^ 2 + 2 * x + 1) % par.plaintext.value) := by
  obtain ⟨n, hwf, -⟩ := build_inv hb h
  have hpos : 0 < par.degree := by rw [hwf.degree]; positivity
  have hQ : par.plaintext.value ≤ par.modulusAt 0 := by have := hr.modulus; omega
  obtain ⟨pt, a1, a2⟩ := encode_const hb h hQ hx (by omega)
  obtain ⟨ct, w, f1, f2, f3, f4⟩ := fresh hb h hk.small hk.encryption hQ a2 hR
  obtain ⟨p, q, u, g1, g2, g3, g4, g5⟩ := mul_relin hb h hr.count hr.sum hk.small hk.relinearization hk.digits f2 f2 f3 f3 f4 f4
  obtain ⟨p3, k3, k3'⟩ := encode_const hb h hQ (x := 3) h3 (by norm_num)
  obtain ⟨p2, k2, k2'⟩ := encode_const hb h hQ (x := 2) (by omega) (by norm_num)
  obtain ⟨p1, k1, k1'⟩ := encode_const hb h hQ (x := 1) (by omega) (by norm_num)
  obtain ⟨c3, w3, m1, m2, m3, m4⟩ := mul_const hb h g3 g4 g5 h3 k3'
  obtain ⟨c2, w2, m1', m2', m3', m4'⟩ := mul_const hb h f2 f3 f4 (by omega) k2'
  obtain ⟨c, s1, s2, s3, -⟩ := C38_add hb h m2 m2' (by rw [m3, m3'])
  obtain ⟨wp, hwp, ⟨d, t1, t2, t3, -⟩, -⟩ := C38_plain hb h hQ s2 k1'
  have hpol : BfvOps.polynomial ct 1 .poly rk par = Res.ok d := by
    unfold BfvOps.polynomial
    simp only [List.replicate_one]
    rw [g1, Res.lift_some, Res.ok_bind, g2, Res.ok_bind, k3, Res.ok_bind, k2, Res.ok_bind, k1, Res.ok_bind, m1, Res.lift_some, Res.ok_bind, m1', Res.lift_some, Res.ok_bind, s1, Res.lift_some, Res.ok_bind, t1,
      Res.lift_some]
  have hwb : wp.Bounded par.plaintext.value := fun j => by
    rw [hwp j, abs_of_nonneg (Int.natCast_nonneg _)]
    exact_mod_cast (Nat.mod_lt _ (by omega)).le
  obtain ⟨l, d1, d2⟩ := decryptDecode_poly hb h hr h64 hk.secret t2 (V := 3 * freshProduct par + 2 * freshNoise par + par.plaintext.value) ((m4.add m4').sub hwb) hroom (x := 3 * x ^ 2 + 2 * x + 1) (by
    rw [← map_mul, ← map_mul, ← map_mul, ← map_add, ← map_add, coeff_C hpos]; push_cast; ring)
  refine ⟨ct, by unfold encodeEncrypt; rw [a1, Res.ok_bind, f1], ?_⟩
  unfold BfvOps.polynomialPlain
  rw [hpol, Res.ok_bind, d1, Res.ok_bind, d2]; rfl

/-- C65, the polynomial `3 x² + 2 x + 1` of encrypted numbers, one in each slot. -/
theorem C65_polynomial_simd (hb : b.OK) (h : build b st = Res.ok par.toBfvParameters) (hr : par.toBfvParameters.Reliable 0) (hop : par.nttOperator ≠ none) (h3 : 3 < par.plaintext.value)
    (hk : ExampleKeys par s sk pk ek rk) {xs : List Nat} (hN : xs.length ≤ par.degree) (hx : ∀ x ∈ xs, x < par.plaintext.value)
    (hroom : Room par (par.degree * freshProduct par * par.plaintext.value + par.degree * freshNoise par * par.plaintext.value + par.plaintext.value)) {r : EncryptRandom} (hR : EncryptRandom.OK r) :
    ∃ ct, encodeEncrypt pk par xs .simd r = Res.ok ct ∧ BfvOps.polynomialSimd b ct xs.length rk par sk = Res.ok (xs.map fun x => (3 * x ^ 2 + 2 * x + 1) % par.plaintext.value) := by
  obtain ⟨n, hwf, -⟩ := build_inv hb h
  have hpos : 0 < par.degree := by rw [hwf.degree]; positivity
  have hQ : par.plaintext.value ≤ par.modulusAt 0 := by have := hr.modulus; omega
  obtain ⟨ζ, z1, z2, z3, z4, z5⟩ := slot_tools hb h hop hQ
  obtain ⟨m, pt, a1, a2, a3⟩ := z1 xs hN hx
  obtain ⟨ct, w, f1, f2, f3, f4⟩ := fresh hb h hk.small hk.encryption hQ a3 hR
  obtain ⟨p, q, u, g1, g2, g3, g4, g5⟩ := mul_relin hb h hr.count hr.sum hk.small hk.relinearization hk.digits f2 f2 f3 f3 f4 f4
  obtain ⟨n3, p3, l3, k3, k3'⟩ := z1 (List.replicate xs.length 3) (by simpa using hN) (fun x hx => by rw [List.eq_of_mem_replicate hx]; omega)
  obtain ⟨n2, p2, l2, k2, k2'⟩ := z1 (List.replicate xs.length 2) (by simpa using hN) (fun x hx => by rw [List.eq_of_mem_replicate hx]; omega)
  obtain ⟨n1, p1, l1, k1, k1'⟩ := z1 (List.replicate xs.length 1) (by simpa using hN) (fun x hx => by rw [List.eq_of_mem_replicate hx]; omega)
  obtain ⟨c3, w3, m1, m2, m3, m4⟩ := mul_any hb h g3 g4 g5 k3'
  obtain ⟨c2, w2, m1', m2', m3', m4'⟩ := mul_any hb h f2 f3 f4 k2'
  obtain ⟨c, s1, s2, s3, -⟩ := C38_add hb h m2 m2' (by rw [m3, m3'])
  obtain ⟨wp, hwp, ⟨d, t1, t2, t3, -⟩, -⟩ := C38_plain hb h hQ s2 k1'
  have hpol : BfvOps.polynomial ct xs.length .simd rk par = Res.ok d := by
    unfold BfvOps.polynomial
    rw [g1, Res.lift_some, Res.ok_bind, g2, Res.ok_bind, k3, Res.ok_bind, k2, Res.ok_bind, k1, Res.ok_bind, m1, Res.lift_some, Res.ok_bind, m1', Res.lift_some, Res.ok_bind, s1, Res.lift_some, Res.ok_bind, t1,
      Res.lift_some]
  have hwb : wp.Bounded par.plaintext.value := fun j => by
    rw [hwp j, abs_of_nonneg (Int.natCast_nonneg _)]
    exact_mod_cast (Nat.mod_lt _ (by omega)).le
  obtain ⟨pd, d1, d2, d3⟩ := decrypt_room hb h hr hk.secret t2 ((m4.add m4').sub hwb) hroom
  refine ⟨ct, by unfold encodeEncrypt; rw [a2, Res.ok_bind, f1], ?_⟩
  unfold BfvOps.polynomialSimd BfvOps.decryptDecode
  rw [hpol, Res.ok_bind, d1, Res.ok_bind, z2 pd 0 _ d2 d3, Res.ok_bind]
  unfold Pir.slice
  rw [check_eq ⟨Nat.zero_le _, by simpa using hN⟩]
  change Res.ok _ = _
  congr 1
  refine List.ext_getElem (by simpa using hN) fun i h1 h2 => ?_
  have hi : i < xs.length := by simpa using h2
  simp only [List.drop_zero, Nat.sub_zero, List.getElem_take, List.getElem_ofFn, List.getElem_map]
  rw [z3, z3, z4, z4, z4, a1 i (by omega), l3 i (by omega), l2 i (by omega), l1 i (by omega), ← ZMod.val_natCast]
  congr 1
  have e : ∀ a : Nat, (List.replicate xs.length a).getD i 0 = a := fun a => by rw [List.getD_eq_getElem _ _ (by simpa using hi), List.getElem_replicate]
  rw [e, e, e, List.getD_eq_getElem _ _ hi]
  push_cast; ring

/-- C65, the polynomial `3 x² + 2 x + 1` of encrypted numbers in all slots: the coefficients of the polynomial are then constants, and the noise
does not grow with the degree. -/
theorem C65_polynomial_full (hb : b.OK) (h : build b st = Res.ok par.toBfvParameters) (hr : par.toBfvParameters.Reliable 0) (hop : par.nttOperator ≠ none) (h3 : 3 < par.plaintext.value)
    (hk : ExampleKeys par s sk pk ek rk) {xs : List Nat} (hlen : xs.length = par.degree) (hx : ∀ x ∈ xs, x < par.plaintext.value)
    (hroom : Room par (3 * freshProduct par + 2 * freshNoise par + par.plaintext.value)) {r : EncryptRandom} (hR : EncryptRandom.OK r) :
    ∃ ct, encodeEncrypt pk par xs .simd r = Res.ok ct ∧ BfvOps.polynomialSimd b ct xs.length rk par sk = Res.ok (xs.map fun x => (3 * x ^ 2 + 2 * x + 1) % par.plaintext.value) := by
  obtain ⟨n, hwf, -⟩ := build_inv hb h
  have hN := hlen.le
  have hpos : 0 < par.degree := by rw [hwf.degree]; positivity
  have hQ : par.plaintext.value ≤ par.modulusAt 0 := by have := hr.modulus; omega
  obtain ⟨ζ, z1, z2, z3, z4, z5⟩ := slot_tools hb h hop hQ
  obtain ⟨m, pt, a1, a2, a3⟩ := z1 xs hN hx
  obtain ⟨ct, w, f1, f2, f3, f4⟩ := fresh hb h hk.small hk.encryption hQ a3 hR
  obtain ⟨p, q, u, g1, g2, g3, g4, g5⟩ := mul_relin hb h hr.count hr.sum hk.small hk.relinearization hk.digits f2 f2 f3 f3 f4 f4
  obtain ⟨p3, k3, k3'⟩ := encode_slots hb h hop hQ (x := 3) h3
  obtain ⟨p2, k2, k2'⟩ := encode_slots hb h hop hQ (x := 2) (by omega)
  obtain ⟨p1, k1, k1'⟩ := encode_slots hb h hop hQ (x := 1) (by omega)
  obtain ⟨c3, w3, m1, m2, m3, m4⟩ := mul_const hb h g3 g4 g5 h3 k3'
  obtain ⟨c2, w2, m1', m2', m3', m4'⟩ := mul_const hb h f2 f3 f4 (by omega) k2'
  obtain ⟨c, s1, s2, s3, -⟩ := C38_add hb h m2 m2' (by rw [m3, m3'])
  obtain ⟨wp, hwp, ⟨d, t1, t2, t3, -⟩, -⟩ := C38_plain hb h hQ s2 k1'
  have hpol : BfvOps.polynomial ct xs.length .simd rk par = Res.ok d := by
    unfold BfvOps.polynomial
    rw [hlen, g1, Res.lift_some, Res.ok_bind, g2, Res.ok_bind, k3, Res.ok_bind, k2, Res.ok_bind, k1, Res.ok_bind, m1, Res.lift_some, Res.ok_bind, m1', Res.lift_some, Res.ok_bind, s1, Res.lift_some, Res.ok_bind, t1,
      Res.lift_some]
  have hwb : wp.Bounded par.plaintext.value := fun j => by
    rw [hwp j, abs_of_nonneg (Int.natCast_nonneg _)]
    exact_mod_cast (Nat.mod_lt _ (by omega)).le
  obtain ⟨pd, d1, d2, d3⟩ := decrypt_room hb h hr hk.secret t2 ((m4.add m4').sub hwb) hroom
  refine ⟨ct, by unfold encodeEncrypt; rw [a2, Res.ok_bind, f1], ?_⟩
  unfold BfvOps.polynomialSimd BfvOps.decryptDecode
  rw [hpol, Res.ok_bind, d1, Res.ok_bind, z2 pd 0 _ d2 d3, Res.ok_bind]
  unfold Pir.slice
  rw [check_eq ⟨Nat.zero_le _, by simpa using hN⟩]
  change Res.ok _ = _
  congr 1
  refine List.ext_getElem (by simpa using hN) fun i h1 h2 => ?_
  have hi : i < xs.length := by simpa using h2
  simp only [List.drop_zero, Nat.sub_zero, List.getElem_take, List.getElem_ofFn, List.getElem_map]
  rw [z3, z3, z4, z4, z4, a1 i (by omega), slotValue_C hpos, slotValue_C hpos, slotValue_C hpos, ← ZMod.val_natCast]
  congr 1
  rw [List.getD_eq_getElem _ _ hi]
  push_cast; ring

/-- C65, `bfv_ops.rs` up to its last result: if the room suffices for the first five results, then the keys are generated and the program
returns these five and whatever the last section computes. -/
theorem C65_ops_of_last (hb : b.OK) (h : build b st = Res.ok par.toBfvParameters) (hlen : 2 ≤ par.moduli.length) (hr : par.toBfvParameters.Reliable 0) (hop : par.nttOperator ≠ none) (h3 : 3 < par.plaintext.value)
    {g : Prg} (hg : g.OK) {values weights v1 v2 xs : List Nat} {x : Nat} (hvalues : values ≠ [] ∧ values.length ≤ par.degree ∧ ∀ x ∈ values, x < par.plaintext.value)
    (hweights : weights.length = values.length ∧ ∀ x ∈ weights, x < par.plaintext.value) (hv1 : v1 ≠ [] ∧ v1.length ≤ par.degree ∧ ∀ x ∈ v1, x < par.plaintext.value)
    (hv2 : v2.length = v1.length ∧ ∀ x ∈ v2, x < par.plaintext.value) (hx : x < par.plaintext.value)
    (hroom1 : Room par (values.length * (par.plaintext.value * freshNoise par))) (hroom2 : Room par (par.degree * (par.degree * freshNoise par * par.plaintext.value) + (par.degree - 1) * switchNoise par))
    (hroom3 : Room par (v1.length * freshProduct par)) (hroom4 : Room par (par.degree * freshProduct par + (par.degree - 1) * switchNoise par))
    (hroom5 : Room par (3 * freshProduct par + 2 * freshNoise par + par.plaintext.value)) {r : BfvOps.Random} (hR : r.OK) :
    ∃ s sk pk ek rk, SecretKey.random par r.secret = some sk ∧ PublicKey.new g sk r.pkSeed r.pk = some pk ∧ ExampleKeys par s sk pk ek rk ∧
      ∀ ct l, encodeEncrypt pk par xs .simd r.xs = Res.ok ct → BfvOps.polynomialSimd b ct xs.length rk par sk = Res.ok l →
        BfvOps.main b g par values weights v1 v2 x xs r = Res.ok
          { weightedPlain := (List.zipWith (· * ·) values weights).sum % par.plaintext.value
            weightedSimd := (List.zipWith (· * ·) values weights).sum % par.plaintext.value
            innerPlain := (List.zipWith (· * ·) v1 v2).sum % par.plaintext.value
            innerSimd := (List.zipWith (· * ·) v1 v2).sum % par.plaintext.value
            polynomialPlain := (3 * x ^ 2 + 2 * x + 1) % par.plaintext.value
            polynomialSimd := l } := by
  obtain ⟨n, hwf, -⟩ := build_inv hb h
  have h64 : par.plaintext.value < 2 ^ 64 := by have := Plaintext.small_of_op hwf hop; omega
  obtain ⟨s, sk, pk, bd, bd', ek, rk, k1, k2, k3, k4, k5, k6, hk⟩ := C65_keys hb h hlen hr.count hg hR.seed hR.keys.1 hR.keys.2.1 hR.keys.2.2.1 hR.keys.2.2.2
  obtain ⟨a1, a2, a3⟩ := C65_weighted_plain hb h hr h64 hk hvalues.1 hweights.1 hvalues.2.2 hweights.2 hroom1 fun k => (hR.each k).1
  obtain ⟨b1, b2, b3, b4, b5⟩ := C65_weighted_simd hb h hr hop hk hweights.1 hvalues.2.1 hvalues.2.2 hweights.2 hroom2 hR.once.1
  obtain ⟨c1, c2, c3, c4, c5⟩ := C65_inner_plain hb h hr h64 hk hv1.1 hv2.1 hv1.2.2 hv2.2 hroom3 (fun k => (hR.each k).2.1) fun k => (hR.each k).2.2
  obtain ⟨d1, d2, d3, d4, d5⟩ := C65_inner_simd hb h hr hop hk hv1.2.1 (by rw [hv2.1]; exact hv1.2.1) hv1.2.2 hv2.2 hroom4 hR.once.2.1 hR.once.2.2.1
  obtain ⟨e1, e2, e3⟩ := C65_polynomial_plain hb h hr h64 h3 hk hx hroom5 hR.once.2.2.2.1
  refine ⟨s, sk, pk, ek, rk, k1, k2, hk, fun ct l f2 f3 => ?_⟩
  unfold BfvOps.main
  rw [k1, Res.lift_some, Res.ok_bind, k2, Res.lift_some, Res.ok_bind, k3, Res.ok_bind, k4, Res.ok_bind, k5, Res.ok_bind, k6, Res.ok_bind, a2, Res.ok_bind, a3, Res.ok_bind, b3, Res.ok_bind, b4, Res.ok_bind, b5, Res.ok_bind,
    c3, Res.ok_bind, c4, Res.ok_bind, c5, Res.ok_bind, d3, Res.ok_bind, d4, Res.ok_bind, d5, Res.ok_bind, e2, Res.ok_bind, e3, Res.ok_bind, f2, Res.ok_bind, f3, Res.ok_bind]
  rfl

/-- C65, `bfv_ops.rs`: for all parameters with at least two moduli whose noise leaves room, all vectors of numbers below the plaintext modulus and
all random choices, the program computes the weighted sum, the inner product and the polynomial, with and without SIMD. -/
theorem C65_ops (hb : b.OK) (h : build b st = Res.ok par.toBfvParameters) (hlen : 2 ≤ par.moduli.length) (hr : par.toBfvParameters.Reliable 0) (hop : par.nttOperator ≠ none) (h3 : 3 < par.plaintext.value)
    {g : Prg} (hg : g.OK) {values weights v1 v2 xs : List Nat} {x : Nat} (hvalues : values ≠ [] ∧ values.length ≤ par.degree ∧ ∀ x ∈ values, x < par.plaintext.value)
    (hweights : weights.length = values.length ∧ ∀ x ∈ weights, x < par.plaintext.value) (hv1 : v1 ≠ [] ∧ v1.length ≤ par.degree ∧ ∀ x ∈ v1, x < par.plaintext.value)
    (hv2 : v2.length = v1.length ∧ ∀ x ∈ v2, x < par.plaintext.value) (hx : x < par.plaintext.value) (hxs : xs.length ≤ par.degree ∧ ∀ x ∈ xs, x < par.plaintext.value)
    (hroom : OpsRoom par values v1) {r : BfvOps.Random} (hR : r.OK) :
    BfvOps.main b g par values weights v1 v2 x xs r = Res.ok
      { weightedPlain := (List.zipWith (· * ·) values weights).sum % par.plaintext.value
        weightedSimd := (List.zipWith (· * ·) values weights).sum % par.plaintext.value
        innerPlain := (List.zipWith (· * ·) v1 v2).sum % par.plaintext.value
        innerSimd := (List.zipWith (· * ·) v1 v2).sum % par.plaintext.value
        polynomialPlain := (3 * x ^ 2 + 2 * x + 1) % par.plaintext.value
        polynomialSimd := xs.map fun x => (3 * x ^ 2 + 2 * x + 1) % par.plaintext.value } := by
  obtain ⟨s, sk, pk, ek, rk, -, -, hk, hmain⟩ := C65_ops_of_last hb h hlen hr hop h3 hg hvalues hweights hv1 hv2 hx hroom.weightedPlain hroom.weightedSimd hroom.innerPlain hroom.innerSimd hroom.polynomialPlain hR
  obtain ⟨ct, f2, f3⟩ := C65_polynomial_simd hb h hr hop h3 hk hxs.1 hxs.2 hroom.polynomialSimd hR.once.2.2.2.2
  exact hmain ct _ f2 f3

/-- C65, `bfv_basic.rs`: for all parameters whose noise leaves room, all numbers and vectors of numbers below the plaintext modulus and all random
choices, the program prints the sum of the numbers and the sums of the vectors, modulo the plaintext modulus. -/
theorem C65_basic (hb : b.OK) (h : build b st = Res.ok par.toBfvParameters) (hr : par.toBfvParameters.Reliable 0) (hop : par.nttOperator ≠ none) {g : Prg} (hg : g.OK) {x y : Nat}
    (hx : x < par.plaintext.value) (hy : y < par.plaintext.value) {v1 v2 : List Nat} (hlen : v2.length = v1.length) (hN : v1.length ≤ par.degree) (hv1 : ∀ x ∈ v1, x < par.plaintext.value)
    (hv2 : ∀ x ∈ v2, x < par.plaintext.value) (hroom : Room par (freshNoise par + freshNoise par)) {r : BfvBasic.Random} (hR : r.OK) :
    BfvBasic.main b g par x y v1 v2 r = Res.ok ((x + y) % par.plaintext.value, List.zipWith (fun x y => (x + y) % par.plaintext.value) v1 v2) := by
  obtain ⟨n, hwf, -⟩ := build_inv hb h
  have hpos : 0 < par.degree := by rw [hwf.degree]; positivity
  have h64 : par.plaintext.value < 2 ^ 64 := by have := Plaintext.small_of_op hwf hop; omega
  have hQ : par.plaintext.value ≤ par.modulusAt 0 := by have := hr.modulus; omega
  obtain ⟨sk, s, a1, a2, a3⟩ := C37_secret_key (par := par) hb h hR.keys.1
  obtain ⟨pk, v, p1, p2, p3, p4, p5, -⟩ := C37_public_key hb h a2 hg hR.seed hR.keys.2
  have hpk : ∃ v : IntPoly par.degree, pk.par = par ∧ pk.c.Encrypts par s 0 0 v ∧ pk.c.c.length = 2 ∧ v.Bounded (par.plaintext.value * (2 * par.variance)) := ⟨v, p2, p3, p5, p4⟩
  obtain ⟨pa, e1, e2⟩ := encode_const hb h hQ hx (by omega)
  obtain ⟨pb, e1', e2'⟩ := encode_const hb h hQ hy (by omega)
  obtain ⟨ca, wa, f1, f2, f3, f4⟩ := fresh hb h a3 hpk hQ e2 hR.encryptions.1
  obtain ⟨cb, wb, f1', f2', f3', f4'⟩ := fresh hb h a3 hpk hQ e2' hR.encryptions.2.1
  obtain ⟨cs, g1, g2, -⟩ := C38_add hb h f2 f2' (by rw [f3, f3'])
  obtain ⟨pt, d1, d2, d3⟩ := decrypt_room hb h hr a2 g2 (f4.add f4') hroom
  obtain ⟨l, d4, d5⟩ := decode_const hb h h64 d2 d3 (x := x + y) (by rw [← map_add, coeff_C hpos, Nat.cast_add])
  obtain ⟨ζ, z1, z2, z3, -⟩ := slot_tools hb h hop hQ
  obtain ⟨m1, pt1, i1, i2, i3⟩ := z1 v1 hN hv1
  obtain ⟨m2, pt2, i1', i2', i3'⟩ := z1 v2 (by omega) hv2
  obtain ⟨c1, w1, j1, j2, j3, j4⟩ := fresh hb h a3 hpk hQ i3 hR.encryptions.2.2.1
  obtain ⟨c2, w2, j1', j2', j3', j4'⟩ := fresh hb h a3 hpk hQ i3' hR.encryptions.2.2.2
  obtain ⟨cs', k1, k2, -⟩ := C38_add hb h j2 j2' (by rw [j3, j3'])
  obtain ⟨pt', q1, q2, q3⟩ := decrypt_room hb h hr a2 k2 (j4.add j4') hroom
  unfold BfvBasic.main
  rw [a1, Res.lift_some, Res.ok_bind, p1, Res.lift_some, Res.ok_bind, e1, Res.ok_bind, e1', Res.ok_bind, f1, Res.ok_bind, f1', Res.ok_bind, g1, Res.lift_some, Res.ok_bind, d1, Res.ok_bind, d4, Res.ok_bind, d5,
    Res.lift_some, Res.ok_bind, i2, Res.ok_bind, i2', Res.ok_bind, j1, Res.ok_bind, j1', Res.ok_bind, k1, Res.lift_some, Res.ok_bind, q1, Res.ok_bind, z2 pt' 0 _ q2 q3, Res.ok_bind]
  unfold Pir.slice
  rw [check_eq ⟨Nat.zero_le _, by simpa using hN⟩]
  change Res.ok _ = _
  congr 2
  refine List.ext_getElem (by simp [hlen, hN]) fun i h1 h2 => ?_
  have hi : i < v1.length := by simp only [List.length_zipWith] at h2; omega
  simp only [List.drop_zero, Nat.sub_zero, List.getElem_take, List.getElem_ofFn, List.getElem_zipWith]
  rw [z3, i1 i (by omega), i1' i (by omega), ← Nat.cast_add, ZMod.val_natCast, List.getD_eq_getElem _ _ hi, List.getD_eq_getElem _ _ (by omega)]

theorem Room.mono {V W : Nat} (h : V ≤ W) (hW : Room par W) : Room par V := le_trans (Nat.mul_le_mul_left _ h) hW

/-- C65, `bfv_basic.rs` with its own parameters: the program prints the sums, modulo 40961, for all numbers and vectors and all random choices. -/
theorem C65_basic_program (hb : b.OK) (hl : b.Lucky) {g : Prg} (hg : g.OK) :
    ∃ l par0, defaultParameters128 b 16 = Res.ok l ∧ l[2]? = some par0 ∧ par0.degree = 4096 ∧ par0.plaintext.value = 40961 ∧
      ∀ (addr x y : Nat) (v1 v2 : List Nat) (r : BfvBasic.Random), x < 40961 → y < 40961 → v2.length = v1.length → v1.length ≤ 4096 → (∀ x ∈ v1, x < 40961) → (∀ x ∈ v2, x < 40961) → r.OK →
        BfvBasic.main b g ⟨par0, addr⟩ x y v1 v2 r = Res.ok ((x + y) % 40961, List.zipWith (fun x y => (x + y) % 40961) v1 v2) := by
  obtain ⟨l, par0, e1, e2, e3, e4, e5, e6, h⟩ := default_16 hb hl
  refine ⟨l, par0, e1, e2, e3, e6, fun addr x y v1 v2 r hx hy hlen hN hv1 hv2 hR => ?_⟩
  obtain ⟨par, hpar0, rfl⟩ : ∃ par : Par, par.toBfvParameters = par0 ∧ par.addr = addr := ⟨⟨par0, addr⟩, rfl, rfl⟩
  subst hpar0
  have hQ0 : par.modulusAt 0 = 0xffffee001 * 0xffffc4001 * 0x1ffffe0001 := by unfold BfvParameters.modulusAt; rw [e4]; decide
  have hop : par.nttOperator ≠ none := (C34_available hb h).2 hl (by rw [e6]; norm_num) (by rw [e6]; norm_num) (by rw [e6, e3])
  have hr : par.toBfvParameters.Reliable 0 := ⟨by rw [e4]; decide, by rw [e4]; decide, by rw [e6, hQ0]; decide, fun _ q hq => by rw [e4] at hq; cases hq; rw [e6]; decide⟩
  have := C65_basic hb h hr hop hg (x := x) (y := y) (by rw [e6]; exact hx) (by rw [e6]; exact hy) hlen (by rw [e3]; exact hN) (by rw [e6]; exact hv1) (by rw [e6]; exact hv2)
    (by unfold Room freshNoise; simp only []; rw [hQ0, e3, e5, e6]; decide) hR
  rw [e6] at this
  exact this

/-- C65, `bfv_ops.rs` with its own parameters, as far as the bounds on the noise go: the keys are generated, and the weighted sums, the inner products,
the polynomial without SIMD and the polynomial with SIMD on vectors that fill all slots are computed correctly modulo 1032193, for all vectors
and all random choices.  What is missing is the polynomial with SIMD on shorter vectors, for which the worst case of the noise exceeds these
parameters; `C65_ops_next` has it for the next set of predefined parameters. -/
theorem C65_ops_program_partial (hb : b.OK) (hl : b.Lucky) {g : Prg} (hg : g.OK) :
    ∃ l par0, defaultParameters128 b 20 = Res.ok l ∧ l[2]? = some par0 ∧ par0.degree = 4096 ∧ par0.plaintext.value = 1032193 ∧
      ∀ (addr : Nat) (r : BfvOps.Random), r.OK → ∃ sk pk bd bd' ek rk, SecretKey.random ⟨par0, addr⟩ r.secret = some sk ∧ PublicKey.new g sk r.pkSeed r.pk = some pk ∧
        EvaluationKeyBuilder.newLeveled b sk 0 0 = Res.ok bd ∧ bd.enableInnerSum = Res.ok bd' ∧ bd'.build b g r.galoisSeeds r.galois = Res.ok ek ∧ RelinearizationKey.newLeveled b g sk 0 0 r.rkSeed r.rk = Res.ok rk ∧
        (∀ values weights : List Nat, values ≠ [] → values.length ≤ 4096 → weights.length = values.length → (∀ x ∈ values, x < 1032193) → (∀ x ∈ weights, x < 1032193) →
          (∃ cts, encryptEach pk ⟨par0, addr⟩ values r.values = Res.ok cts ∧ BfvOps.weightedSumPlain b cts weights ⟨par0, addr⟩ sk = Res.ok ((List.zipWith (· * ·) values weights).sum % 1032193)) ∧
          ∃ ct pt, encodeEncrypt pk ⟨par0, addr⟩ values .simd r.vals = Res.ok ct ∧ Plaintext.tryEncodeU64 weights ⟨.simd, 0⟩ ⟨par0, addr⟩ false = Res.ok pt ∧
            BfvOps.weightedSumSimd b ct pt ek sk = Res.ok ((List.zipWith (· * ·) values weights).sum % 1032193)) ∧
        (∀ v1 v2 : List Nat, v1 ≠ [] → v1.length ≤ 4096 → v2.length = v1.length → (∀ x ∈ v1, x < 1032193) → (∀ x ∈ v2, x < 1032193) →
          (∃ ct1 ct2, encryptEach pk ⟨par0, addr⟩ v1 r.v1 = Res.ok ct1 ∧ encryptEach pk ⟨par0, addr⟩ v2 r.v2 = Res.ok ct2 ∧
            BfvOps.innerProductPlain b ct1 ct2 rk ⟨par0, addr⟩ sk = Res.ok ((List.zipWith (· * ·) v1 v2).sum % 1032193)) ∧
          ∃ ct1 ct2, encodeEncrypt pk ⟨par0, addr⟩ v1 .simd r.pt1 = Res.ok ct1 ∧ encodeEncrypt pk ⟨par0, addr⟩ v2 .simd r.pt2 = Res.ok ct2 ∧
            BfvOps.innerProductSimd b ct1 ct2 rk ek sk = Res.ok ((List.zipWith (· * ·) v1 v2).sum % 1032193)) ∧
        (∀ x < 1032193, ∃ ct, encodeEncrypt pk ⟨par0, addr⟩ [x] .poly r.x = Res.ok ct ∧ BfvOps.polynomialPlain b ct rk ⟨par0, addr⟩ sk = Res.ok ((3 * x ^ 2 + 2 * x + 1) % 1032193)) ∧
        ∀ xs : List Nat, xs.length = 4096 → (∀ x ∈ xs, x < 1032193) → ∃ ct, encodeEncrypt pk ⟨par0, addr⟩ xs .simd r.xs = Res.ok ct ∧
          BfvOps.polynomialSimd b ct xs.length rk ⟨par0, addr⟩ sk = Res.ok (xs.map fun x => (3 * x ^ 2 + 2 * x + 1) % 1032193) := by
  obtain ⟨l, par0, -, e1, ⟨e2, e3, e4, e5, e6, h⟩, -⟩ := default_20 hb hl
  refine ⟨l, par0, e1, e2, e3, e6, fun addr r hR => ?_⟩
  obtain ⟨par, hpar0, rfl⟩ : ∃ par : Par, par.toBfvParameters = par0 ∧ par.addr = addr := ⟨⟨par0, addr⟩, rfl, rfl⟩
  subst hpar0
  have hQ0 : par.modulusAt 0 = 0xffffee001 * 0xffffc4001 * 0x1ffffe0001 := by unfold BfvParameters.modulusAt; rw [e4]; decide
  have hop : par.nttOperator ≠ none := (C34_available hb h).2 hl (by rw [e6]; norm_num) (by rw [e6]; norm_num) (by rw [e6, e3])
  have hr : par.toBfvParameters.Reliable 0 := ⟨by rw [e4]; decide, by rw [e4]; decide, by rw [e6, hQ0]; decide, fun _ q hq => by rw [e4] at hq; cases hq; rw [e6]; decide⟩
  have h64 : par.plaintext.value < 2 ^ 64 := by rw [e6]; norm_num
  obtain ⟨s, sk, pk, bd, bd', ek, rk, k1, k2, k3, k4, k5, k6, hk⟩ := C65_keys hb h (by rw [e4]; decide) hr.count hg hR.seed hR.keys.1 hR.keys.2.1 hR.keys.2.2.1 hR.keys.2.2.2
  refine ⟨sk, pk, bd, bd', ek, rk, k1, k2, k3, k4, k5, k6, fun values weights hne hN hlen hv hw => ⟨?_, ?_⟩, fun v1 v2 hne hN hlen hv1 hv2 => ⟨?_, ?_⟩, fun x hx => ?_, fun xs hxl hxs => ?_⟩
  · have := C65_weighted_plain hb h hr h64 hk hne hlen (by rw [e6]; exact hv) (by rw [e6]; exact hw) (Room.mono (Nat.mul_le_mul_right _ hN) (by
      unfold Room freshNoise; simp only []; rw [hQ0, e3, e5, e6]; decide)) fun k => (hR.each k).1
    rw [e6] at this; exact this
  · have := C65_weighted_simd hb h hr hop hk hlen (by rw [e3]; exact hN) (by rw [e6]; exact hv) (by rw [e6]; exact hw) (by
      unfold Room freshNoise switchNoise; simp only []; rw [hQ0, e3, e4, e5, e6]; decide) hR.once.1
    rw [e6] at this; exact this
  · have := C65_inner_plain hb h hr h64 hk hne hlen (by rw [e6]; exact hv1) (by rw [e6]; exact hv2) (Room.mono (Nat.mul_le_mul_right _ hN) (by
      unfold Room freshProduct mulNoise mulHeight freshNoise switchNoise; simp only []; rw [hQ0, e3, e4, e5, e6]; decide +kernel)) (fun k => (hR.each k).2.1) fun k => (hR.each k).2.2
    rw [e6] at this; exact this
  · have := C65_inner_simd hb h hr hop hk (v1 := v1) (v2 := v2) (by rw [e3]; exact hN) (by rw [e3, hlen]; exact hN) (by rw [e6]; exact hv1) (by rw [e6]; exact hv2) (by
      unfold Room freshProduct mulNoise mulHeight freshNoise switchNoise; simp only []; rw [hQ0, e3, e4, e5, e6]; decide +kernel) hR.once.2.1 hR.once.2.2.1
    rw [e6] at this; exact this
  · have := C65_polynomial_plain hb h hr h64 (by rw [e6]; decide) hk (x := x) (by rw [e6]; exact hx) (by
      unfold Room freshProduct mulNoise mulHeight freshNoise switchNoise; simp only []; rw [hQ0, e3, e4, e5, e6]; decide +kernel) hR.once.2.2.2.1
    rw [e6] at this; exact this
  · have := C65_polynomial_full hb h hr hop (by rw [e6]; decide) hk (xs := xs) (by rw [e3]; exact hxl) (by rw [e6]; exact hxs) (by
      unfold Room freshProduct mulNoise mulHeight freshNoise switchNoise; simp only []; rw [hQ0, e3, e4, e5, e6]; decide +kernel) hR.once.2.2.2.2
    rw [e6] at this; exact this

/-- C65, `bfv_ops.rs` with the next set of predefined parameters: the whole program is correct modulo 1032193, for all vectors and all random
choices. -/
theorem C65_ops_next (hb : b.OK) (hl : b.Lucky) {g : Prg} (hg : g.OK) :
    ∃ l par0, defaultParameters128 b 20 = Res.ok l ∧ l[3]? = some par0 ∧ par0.degree = 8192 ∧ par0.plaintext.value = 1032193 ∧
      ∀ (addr : Nat) (values weights v1 v2 xs : List Nat) (x : Nat) (r : BfvOps.Random), values ≠ [] → values.length ≤ 8192 → (∀ x ∈ values, x < 1032193) → weights.length = values.length →
        (∀ x ∈ weights, x < 1032193) → v1 ≠ [] → v1.length ≤ 8192 → (∀ x ∈ v1, x < 1032193) → v2.length = v1.length → (∀ x ∈ v2, x < 1032193) → x < 1032193 → xs.length ≤ 8192 → (∀ x ∈ xs, x < 1032193) → r.OK →
        BfvOps.main b g ⟨par0, addr⟩ values weights v1 v2 x xs r = Res.ok
          { weightedPlain := (List.zipWith (· * ·) values weights).sum % 1032193, weightedSimd := (List.zipWith (· * ·) values weights).sum % 1032193
            innerPlain := (List.zipWith (· * ·) v1 v2).sum % 1032193, innerSimd := (List.zipWith (· * ·) v1 v2).sum % 1032193
            polynomialPlain := (3 * x ^ 2 + 2 * x + 1) % 1032193, polynomialSimd := xs.map fun x => (3 * x ^ 2 + 2 * x + 1) % 1032193 } := by
  obtain ⟨l, -, par0, e1, -, e2, e3, e4, e5, e6, h⟩ := default_20 hb hl
  refine ⟨l, par0, e1, e2, e3, e6, fun addr values weights v1 v2 xs x r a1 a2 a3 a4 a5 a6 a7 a8 a9 a10 a11 a12 a13 hR => ?_⟩
  obtain ⟨par, hpar0, rfl⟩ : ∃ par : Par, par.toBfvParameters = par0 ∧ par.addr = addr := ⟨⟨par0, addr⟩, rfl, rfl⟩
  subst hpar0
  have hQ0 : par.modulusAt 0 = 0x7fffffd8001 * 0x7fffffc8001 * 0xfffffffc001 * 0xffffff6c001 * 0xfffffebc001 := by unfold BfvParameters.modulusAt; rw [e4]; decide
  have hop : par.nttOperator ≠ none := (C34_available hb h).2 hl (by rw [e6]; norm_num) (by rw [e6]; norm_num) (by rw [e6, e3])
  have hr : par.toBfvParameters.Reliable 0 := ⟨by rw [e4]; decide, by rw [e4]; decide, by rw [e6, hQ0]; decide, fun _ q hq => by rw [e4] at hq; cases hq; rw [e6]; decide⟩
  have hroom : OpsRoom par values v1 := by
    refine ⟨Room.mono (Nat.mul_le_mul_right _ a2) ?_, ?_, Room.mono (Nat.mul_le_mul_right _ a7) ?_, ?_, ?_, ?_⟩ <;>
      (unfold Room; simp only [freshProduct, mulNoise, mulHeight, freshNoise, switchNoise]; rw [hQ0, e3, e5, e6]; try rw [e4]) <;> decide +kernel
  have := C65_ops hb h (by rw [e4]; decide) hr hop (by rw [e6]; decide) hg (values := values) (weights := weights) (v1 := v1) (v2 := v2) (xs := xs) (x := x) (by rw [e3, e6]; exact ⟨a1, a2, a3⟩) (by rw [e6]; exact ⟨a4, a5⟩) (by rw [e3, e6]; exact ⟨a6, a7, a8⟩)
    (by rw [e6]; exact ⟨a9, a10⟩) (by rw [e6]; exact a11) (by rw [e3, e6]; exact ⟨a12, a13⟩) hroom hR
  rw [e6] at this
  exact this

/-- The stream of the examples below. -/
def exEncrypt : EncryptRandom := ⟨exRng, exRng, exRng⟩
theorem exEncrypt_ok : EncryptRandom.OK exEncrypt := ⟨exRng_ok, exRng_ok, exRng_ok⟩

/-- `bfv_basic.rs` with its own numbers, for some random choices. -/
example : ∃ l par0, defaultParameters128 luckyBuild 16 = Res.ok l ∧ l[2]? = some par0 ∧
    BfvBasic.main luckyBuild exPrg ⟨par0, 0⟩ 3 5 [1, 2, 3, 4] [5, 6, 7, 8] ⟨exRng, List.replicate 32 7, exRng, exEncrypt, exEncrypt, exEncrypt, exEncrypt⟩ = Res.ok (8, [6, 8, 10, 12]) := by
  obtain ⟨l, par0, e1, e2, -, -, h⟩ := C65_basic_program luckyBuild_ok luckyBuild_lucky exPrg_ok
  exact ⟨l, par0, e1, e2, h 0 _ _ _ _ _ (by decide) (by decide) rfl (by decide) (by decide) (by decide) ⟨by simp, ⟨exRng_ok, exRng_ok⟩, exEncrypt_ok, exEncrypt_ok, exEncrypt_ok, exEncrypt_ok⟩⟩

/-- `bfv_ops.rs` with its own numbers and the next set of parameters, for some random choices. -/
example : ∃ l par0, defaultParameters128 luckyBuild 20 = Res.ok l ∧ l[3]? = some par0 ∧
    BfvOps.main luckyBuild exPrg ⟨par0, 0⟩ [1, 2, 3] [4, 5, 6] [1, 2, 3] [4, 5, 6] 5 [1, 2, 3, 4] ⟨exRng, List.replicate 32 7, exRng, fun _ => List.replicate 32 8, fun _ _ => exRng, List.replicate 32 9, fun _ => exRng,
      fun _ => exEncrypt, exEncrypt, fun _ => exEncrypt, fun _ => exEncrypt, exEncrypt, exEncrypt, exEncrypt, exEncrypt⟩ = Res.ok ⟨32, 32, 32, 32, 86, [6, 17, 34, 57]⟩ := by
  obtain ⟨l, par0, e1, e2, -, -, h⟩ := C65_ops_next luckyBuild_ok luckyBuild_lucky exPrg_ok
  exact ⟨l, par0, e1, e2, h 0 _ _ _ _ _ _ _ (by decide) (by decide) (by decide) rfl (by decide) (by decide) (by decide) (by decide) rfl (by decide) (by decide) (by decide) (by decide)
    ⟨by simp, ⟨exRng_ok, exRng_ok, fun _ _ => exRng_ok, fun _ => exRng_ok⟩, fun _ => ⟨exEncrypt_ok, exEncrypt_ok, exEncrypt_ok⟩, exEncrypt_ok, exEncrypt_ok, exEncrypt_ok, exEncrypt_ok, exEncrypt_ok⟩⟩

end Fhe.Props
