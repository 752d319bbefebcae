import Verif.Spec.Mpc
import Verif.Props.Circuit
import Verif.Props.Mbfv
import Verif.Lemmas.ExamplesParams
import Verif.Spec.Examples
/-!
# Property C66: computations of several parties

The parties make a public key and a relinearization key; anyone encrypts inputs with the public key; any computation is made on these; the parties
decrypt its result together, or switch it to the key of a recipient.
-/
namespace Fhe.Props
open Nega Poly ParamsBuilder

variable {b : Build} {par : Par} {st : ParamsBuilder} {i K S : Nat} {sk : Fin K → SecretKey} {s : Fin K → IntPoly par.degree}

theorem modulusAt_le (hb : b.OK) (h : build b st = Res.ok par.toBfvParameters) {j : Nat} (hij : j ≤ i) : par.modulusAt i ≤ par.modulusAt j := by
  obtain ⟨n, hw, -⟩ := build_inv hb h
  by_cases hi : i < par.moduli.length
  · obtain ⟨l, ha⟩ := AtLevel.ofLt (par := par) hw hi
    obtain ⟨l', ha'⟩ := AtLevel.ofLt (par := par) hw (i := j) (by omega)
    obtain ⟨P, hP, hP0⟩ := modulus_factor hw ha' ha hij
    rw [ha.mod, ha'.mod] at hP
    rw [hP]; exact Nat.le_mul_of_pos_left _ hP0
  · have h1 : par.modulusAt i = 1 := by
      unfold BfvParameters.modulusAt
      rw [Nat.sub_eq_zero_of_le (by omega)]; rfl
    rw [h1]
    by_cases hj : j < par.moduli.length
    · obtain ⟨l', ha'⟩ := AtLevel.ofLt (par := par) hw hj
      exact ha'.pos
    · unfold BfvParameters.modulusAt
      rw [Nat.sub_eq_zero_of_le (by omega)]; simp

/-- Computations with the keys of the parties are admissible. -/
theorem collective_admissible (hb : b.OK) (h : build b st = Res.ok par.toBfvParameters) (hi : i < par.moduli.length) (hQ : par.plaintext.value ≤ par.modulusAt i) (hS : ∀ k, (s k).Bounded S)
    {pk : PublicKey} (hp : pk.par = par) {v : IntPoly par.degree} (hpk : pk.c.Encrypts par (∑ k, s k) 0 0 v) (hlen : pk.c.c.length = 2) (hv : v.Bounded (par.plaintext.value * (K * (2 * par.variance))))
    {rk : RelinearizationKey} (hrk : rk.IsFor par (∑ k, s k) 0 0 (collectiveKeyError par K S)) {E : Circuit.Env} {D : Circuit.Data par} (hE : E.Under b D i pk rk) (hD : D.Of K S) :
    ∀ {j : Nat} (c : Circuit j), j ≤ i → c.Collective → c.Admissible b E (∑ k, s k) D := by
  intro j c
  induction c with
  | input j k =>
    intro hj _
    obtain ⟨pt, rngU, rng1, rng2, h1, h2, h3, h4, h5⟩ := hE.input j k hj
    obtain ⟨ct, v', f1, f2, f3, -, f5⟩ := C37_public_encrypt hb h hp hpk hlen (IntPoly.Bounded.sum_fin hS) (V := par.plaintext.value * (K * (2 * par.variance) + 1 + par.degree * (K * S)))
      (hv.mono (Nat.mul_le_mul_left _ (by omega))) (Nat.mul_le_mul_left _ (by omega)) (hQ.trans (modulusAt_le hb h hj)) h1 h2 h3 h4
    obtain rfl : E.ct j k = ct := Res.ok_inj.1 (h5.symm.trans f1)
    refine ⟨v', f2, f3, f5.mono (le_of_eq ?_)⟩
    rw [hD.noise]
    unfold collectiveNoise
    ring
  | add x y ihx ihy => exact fun hj hc => ⟨ihx hj hc.1, ihy hj hc.2⟩
  | sub x y ihx ihy => exact fun hj hc => ⟨ihx hj hc.1, ihy hj hc.2⟩
  | neg x ihx => exact fun hj hc => ihx hj hc
  | addPlain x k ihx => exact fun hj hc => ⟨ihx hj hc, hE.plain _ k hj, hQ.trans (modulusAt_le hb h hj)⟩
  | subPlain x k ihx => exact fun hj hc => ⟨ihx hj hc, hE.plain _ k hj, hQ.trans (modulusAt_le hb h hj)⟩
  | plainSub k x ihx => exact fun hj hc => ⟨ihx hj hc, hE.plain _ k hj, hQ.trans (modulusAt_le hb h hj)⟩
  | mulPlain x k ihx => exact fun hj hc => ⟨ihx hj hc, hE.plain _ k hj⟩
  | mul x y ihx ihy =>
    intro hj hc
    obtain ⟨rfl, hx, hy⟩ := hc
    exact ⟨ihx hj hx, ihy hj hy, 0, by rw [hE.key, hD.keyError]; exact hrk⟩
  | multiply x y ihx ihy =>
    intro hj hc
    obtain ⟨rfl, hx, hy⟩ := hc
    exact ⟨ihx hj hx, ihy hj hy, ⟨0, by rw [hE.key, hD.keyError]; exact hrk⟩, by rw [hE.key]; exact hE.multiplicator⟩
  | external x k ihx => exact fun _ hc => hc.elim
  | rotateRows x ihx => exact fun _ hc => hc.elim
  | rotateColumns x k ihx => exact fun _ hc => hc.elim
  | innerSum x ihx => exact fun _ hc => hc.elim
  | switchDown x ihx => exact fun hj hc => ⟨ihx (by omega) hc, by omega⟩

/-- C66: `K` parties, with any secret keys, make a public key and a relinearization key, with the shares of each round taken in any order.  Every
computation with these keys, of any size, on inputs encrypted with the public key, runs without panic or error.  If the bound on its noise leaves room,
then the decryption shares of its result, in any order, give what the computation should give on the messages; and the shares for the switch to the
public key of a recipient, in any order, give a ciphertext that the recipient decrypts to this. -/
theorem C66_compute (hb : b.OK) (h : build b st = Res.ok par.toBfvParameters) (hrel : par.toBfvParameters.Reliable i) (hK : 0 < K) (hk : ∀ k, (sk k).IsKey par (s k)) (hS : ∀ k, (s k).Bounded S)
    (hlen : 1 < par.moduli.length) {crp : CommonRandomPoly} (hctx : par.contextAtLevel 0 = Res.ok crp.poly.ctx) (hv : crp.poly.Valid)
    {crps : List CommonRandomPoly} (hcrps : crps.length = par.moduli.length) (hvs : ∀ x ∈ crps, x.poly.Valid ∧ par.contextAtLevel 0 = Res.ok x.poly.ctx)
    {rng rngU : Fin K → Nat → Nat} (hr : ∀ k, IsStream (rng k)) (hU : ∀ k, IsStream (rngU k)) {rng0 rng1 rng2 rng3 : Fin K → Nat → Nat → Nat} (h0 : ∀ k j, IsStream (rng0 k j))
    (h1 : ∀ k j, IsStream (rng1 k j)) (h2 : ∀ k j, IsStream (rng2 k j)) (h3 : ∀ k j, IsStream (rng3 k j)) :
    ∃ (share : Fin K → PublicKeyShare) (pk : PublicKey) (gen : Fin K → RelinKeyGenerator) (r1 : Fin K → RelinKeyShare) (R1 : RelinKeyShare) (r2 : Fin K → RelinKeyShare2) (rk : RelinearizationKey),
      (∀ k, PublicKeyShare.new (sk k) crp (rng k) = Res.ok (share k)) ∧ (∀ σ : Equiv.Perm (Fin K), PublicKeyShare.aggregate (List.ofFn fun k => share (σ k)) = Res.ok pk) ∧
      (∀ k, RelinKeyGenerator.new (sk k) crps (rngU k) = Res.ok (gen k)) ∧ (∀ k, (gen k).round1 b (rng0 k) (rng1 k) = Res.ok (r1 k)) ∧
      (∀ σ : Equiv.Perm (Fin K), RelinKeyShare.aggregate (List.ofFn fun k => r1 (σ k)) = Res.ok R1) ∧ (∀ k, (gen k).round2 R1 (rng2 k) (rng3 k) = Res.ok (r2 k)) ∧
      (∀ σ : Equiv.Perm (Fin K), RelinKeyShare2.aggregate (List.ofFn fun k => r2 (σ k)) = Res.ok rk) ∧ (b.Lucky → ∃ mp, Multiplicator.default b rk = Res.ok mp) ∧ rk.ksk.digitSum = par.moduli.sum ∧
      rk.ksk.ciphertextLevel = 0 ∧ rk.ksk.kskLevel = 0 ∧
      (∀ (j : Nat) (m : par.Msg) (pt : Plaintext) (rngU rng1 rng2 : Nat → Nat), j ≤ i → pt.Holds par j m → IsStream rngU → IsStream rng1 → IsStream rng2 → ∃ ct, pk.tryEncrypt pt rngU rng1 rng2 = Res.ok ct) ∧
      ∀ (E : Circuit.Env) (D : Circuit.Data par), E.Under b D i pk rk → D.Of K S → ∀ c : Circuit i, c.Collective →
        ∃ r, c.eval E = Res.ok r ∧
          (2 ^ 62 * (c.noise E D + par.plaintext.value * (K * (2 * par.variance))) ≤ (2 ^ 61 - 1) * par.modulusAt i →
            ∀ rng' : Fin K → Nat → Nat, (∀ k, IsStream (rng' k)) → ∃ (share' : Fin K → DecryptionShare) (pt : Plaintext), (∀ k, DecryptionShare.new (sk k) r (rng' k) = Res.ok (share' k)) ∧
              (∀ σ : Equiv.Perm (Fin K), DecryptionShare.aggregate (List.ofFn fun k => share' (σ k)) = Res.ok pt) ∧ pt.Holds par i (c.value D) ∧ pt.encoding = none) ∧
          ∀ {sk' : SecretKey} {s' : IntPoly par.degree} {S' : Nat} {g : Prg} {seed : Seed} {rng' : Nat → Nat} {pk' : PublicKey}, sk'.IsKey par s' → s'.Bounded S' → g.OK → seed.length = 32 → IsStream rng' →
            PublicKey.new g sk' seed rng' = some pk' →
            2 ^ 62 * (c.noise E D + par.plaintext.value * (K * (2 * par.variance)) * (par.degree * (2 * par.variance + 1 + par.degree * S') + 1 + par.degree * S')) ≤ (2 ^ 61 - 1) * par.modulusAt i →
            ∀ rngU rng0 rng1 : Fin K → Nat → Nat, (∀ k, IsStream (rngU k) ∧ IsStream (rng0 k) ∧ IsStream (rng1 k)) →
              ∃ (share' : Fin K → PublicKeySwitchShare) (r' : Ciphertext) (pt : Plaintext), (∀ k, PublicKeySwitchShare.new (sk k) pk' r (rngU k) (rng0 k) (rng1 k) = Res.ok (share' k)) ∧
                (∀ σ : Equiv.Perm (Fin K), PublicKeySwitchShare.aggregate (List.ofFn fun k => share' (σ k)) = Res.ok r') ∧ sk'.tryDecrypt b r' = Res.ok pt ∧ pt.Holds par i (c.value D) ∧ pt.encoding = none := by
  obtain ⟨share, pk, e, e1, e2, e3, e4, e5, e6, -, -⟩ := C51_public_key hb h hK hk hctx hv hr
  have hv0 := e5.C_mul (par.plaintext.value : Int)
  rw [Int.natAbs_natCast] at hv0
  obtain ⟨gen, r1, R1, r2, rk, k1, k2, k3, k4, k5, k6, k7⟩ := C52_relinearization_key hb h hK hk hS hlen hcrps hvs hU h0 h1 h2 h3
  obtain ⟨n, hw, -⟩ := build_inv hb h
  have ht := hw.t_pos
  have hi : i < par.moduli.length := by
    by_contra hc
    have := hrel.modulus
    unfold BfvParameters.modulusAt at this
    rw [Nat.sub_eq_zero_of_le (by omega), List.take_zero, List.prod_nil] at this
    omega
  have hQ : par.plaintext.value ≤ par.modulusAt i := by have := hrel.modulus; omega
  refine ⟨share, pk, gen, r1, R1, r2, rk, e1, e2, k1, k2, k3, k4, k5, (C39_default hb h hrel.count hrel.sum k6).1, k7, k6.level, k6.keyLevel, ?_, fun E D hE hD c hc => ?_⟩
  · intro j m pt rngU rng1 rng2 hj hm q1 q2 q3
    obtain ⟨ct, -, f, -⟩ := C37_public_encrypt hb h e3 e4 e6 (IntPoly.Bounded.sum_fin hS) (V := par.plaintext.value * (K * (2 * par.variance) + 1 + par.degree * (K * S)))
      (hv0.mono (Nat.mul_le_mul_left _ (by omega))) (Nat.mul_le_mul_left _ (by omega)) (hQ.trans (modulusAt_le hb h hj)) hm q1 q2 q3
    exact ⟨ct, f⟩
  obtain ⟨r, v, f1, f2, f3, f4⟩ := C60_evaluate hb h hrel.count hrel.sum (by rw [hD.secret]; exact IntPoly.Bounded.sum_fin hS) c (collective_admissible hb h hi hQ hS e3 e4 e6 hv0 k6 hE hD c (le_refl _) hc)
  refine ⟨r, f1, fun hroom rng' hr' => C53_decrypt hb h hrel.count hrel.sum hrel.modulus hK hk f2 f3 f4 hroom hr', ?_⟩
  intro sk' s' S' g seed rng' pk' hk' hS' hg h32 hr' hpk' hroom rngU rng0 rng1 hst
  obtain ⟨pk2, v', g1, g2, g3, g4, g5, -⟩ := C37_public_key hb h hk' hg h32 hr'
  obtain rfl : pk' = pk2 := Option.some.inj (hpk'.symm.trans g1)
  obtain ⟨share', r', w, q1, q2, q3, q4, -, q6⟩ := C53_public_key_switch hb h hK hk f2 f3 g2 g3 g5 hS' (V' := par.plaintext.value * (2 * par.variance + 1 + par.degree * S'))
    (g4.mono (Nat.mul_le_mul_left _ (by omega))) (Nat.mul_le_mul_left _ (by omega)) (fun k => (hst k).1) (fun k => (hst k).2.1) (fun k => (hst k).2.2)
  obtain ⟨pt, p1, p2, p3⟩ := C37_decrypt hb h hrel hk' q3 (small_of_bounded ((f4.add q6).mono (le_of_eq (by ring))) hroom)
  exact ⟨share', r', pt, q1, q2, p1, p2, p3⟩

/-- A row of `N` reduced entries for each modulus: what a common random polynomial is drawn from. -/
def IsRows (N : Nat) (moduli : List Nat) (rows : List (List Nat)) : Prop :=
  List.Forall₂ (fun q row => row.length = N ∧ ∀ x ∈ row, x < q) moduli rows

/-- The noise of a product at these parameters. -/
def productNoise20 (K : Nat) : Nat :=
  let Q := 0x7fffffd8001 * 0x7fffffc8001 * 0xfffffffc001 * 0xffffff6c001 * 0xfffffebc001
  let V := 1032193 * (8192 * (2 * 10) * (K * (2 * 10) + 1 + 8192 * (K * (2 * 10))) + (2 * 10 + 8192 * (K * (2 * 10)) * (2 * 10)) + 1)
  let H := (1032193 * (Q * (2 ^ 55 + 1) / 2 ^ 56 * (0 + (8192 * (K * (2 * 10))) ^ 0 + (8192 * (K * (2 * 10))) ^ 1)) + V) / Q
  let e := 8192 * (K * (2 * 10)) * (K * (2 * 10)) + 8192 * (K * (2 * 10)) * (K * (2 * 10)) + 2 * (K * (2 * 10))
  8192 * (H * V + H * V) + (8192 * V * V + 1032193 * ((2 ^ 61 + 1) * Q / 2 ^ 62 * (0 + (8192 * (K * (2 * 10))) ^ 0 + (8192 * (K * (2 * 10))) ^ 1 + (8192 * (K * (2 * 10))) ^ 2))) / Q +
    1032193 * ((2 * (8192 * [0x7fffffd8001, 0x7fffffc8001, 0xfffffffc001, 0xffffff6c001, 0xfffffebc001].sum * e) + (0 - 0) * (Q / Q) * (1 + 8192 * (K * (2 * 10)))) / (2 * (Q / Q))) + 1032193 * (K * (2 * 10))

theorem productNoise20_mono : Monotone productNoise20 := fun K K' hK => by
  unfold productNoise20
  simp only []
  gcongr

/-- C66, at predefined parameters: with the parameters of degree 8192 for plaintexts of 20 bits, any number of parties up to `2^40` make keys, with any
random choices; two vectors are encrypted with the public key, multiplied, and decrypted together.  The result is the vector of the products. -/
theorem C66_product (hb : b.OK) (hl : b.Lucky) :
    ∃ l par0, defaultParameters128 b 20 = Res.ok l ∧ l[3]? = some par0 ∧ par0.degree = 8192 ∧ par0.plaintext.value = 1032193 ∧ ∀ (addr K : Nat) (x y : List Nat), 0 < K → K ≤ 2 ^ 40 →
      x.length = 8192 → y.length = 8192 → (∀ a ∈ x, a < 1032193) → (∀ a ∈ y, a < 1032193) →
      ∀ (rows : List (List Nat)) (rowss : Nat → List (List Nat)), IsRows 8192 par0.moduli rows → (∀ j, IsRows 8192 par0.moduli (rowss j)) →
      ∀ (rngS rng rngU rngD : Fin K → Nat → Nat) (rng0 rng1 rng2 rng3 : Fin K → Nat → Nat → Nat) (rX rY : EncryptRandom), (∀ k, IsStream (rngS k) ∧ IsStream (rng k) ∧ IsStream (rngU k) ∧ IsStream (rngD k)) →
      (∀ k j, IsStream (rng0 k j) ∧ IsStream (rng1 k j) ∧ IsStream (rng2 k j) ∧ IsStream (rng3 k j)) → rX.OK → rY.OK →
      ∃ (sk : Fin K → SecretKey) (crp : CommonRandomPoly) (crps : List CommonRandomPoly) (share : Fin K → PublicKeyShare) (pk : PublicKey) (gen : Fin K → RelinKeyGenerator) (r1 : Fin K → RelinKeyShare)
        (R1 : RelinKeyShare) (r2 : Fin K → RelinKeyShare2) (rk : RelinearizationKey) (mp : Multiplicator) (px py : Plaintext) (cx cy r : Ciphertext) (share' : Fin K → DecryptionShare) (pt : Plaintext),
        (∀ k, SecretKey.random ⟨par0, addr⟩ (rngS k) = some (sk k)) ∧ CommonRandomPoly.newLeveled ⟨par0, addr⟩ 0 rows = Res.ok crp ∧ CommonRandomPoly.newVec ⟨par0, addr⟩ rowss = Res.ok crps ∧
        (∀ k, PublicKeyShare.new (sk k) crp (rng k) = Res.ok (share k)) ∧ (∀ σ : Equiv.Perm (Fin K), PublicKeyShare.aggregate (List.ofFn fun k => share (σ k)) = Res.ok pk) ∧
        (∀ k, RelinKeyGenerator.new (sk k) crps (rngU k) = Res.ok (gen k)) ∧ (∀ k, (gen k).round1 b (rng0 k) (rng1 k) = Res.ok (r1 k)) ∧
        (∀ σ : Equiv.Perm (Fin K), RelinKeyShare.aggregate (List.ofFn fun k => r1 (σ k)) = Res.ok R1) ∧ (∀ k, (gen k).round2 R1 (rng2 k) (rng3 k) = Res.ok (r2 k)) ∧
        (∀ σ : Equiv.Perm (Fin K), RelinKeyShare2.aggregate (List.ofFn fun k => r2 (σ k)) = Res.ok rk) ∧ Multiplicator.default b rk = Res.ok mp ∧
        Plaintext.tryEncodeU64 x ⟨.simd, 0⟩ ⟨par0, addr⟩ false = Res.ok px ∧ Plaintext.tryEncodeU64 y ⟨.simd, 0⟩ ⟨par0, addr⟩ false = Res.ok py ∧
        pk.tryEncrypt px rX.u rX.e1 rX.e2 = Res.ok cx ∧ pk.tryEncrypt py rY.u rY.e1 rY.e2 = Res.ok cy ∧ mp.multiply cx cy = Res.ok r ∧
        (∀ k, DecryptionShare.new (sk k) r (rngD k) = Res.ok (share' k)) ∧ (∀ σ : Equiv.Perm (Fin K), DecryptionShare.aggregate (List.ofFn fun k => share' (σ k)) = Res.ok pt) ∧
        pt.decodeU64 (some ⟨.simd, 0⟩) = Res.ok (List.zipWith (fun a a' => a * a' % 1032193) x y) := by
  obtain ⟨l, -, par0, e1, -, e2, e3, e4, e5, e6, h⟩ := default_20 hb hl
  refine ⟨l, par0, e1, e2, e3, e6, fun addr K x y hK hK' hx hy hx' hy' rows rowss hrows hrowss rngS rng rngU rngD rng0 rng1 rng2 rng3 rX rY hst hst' hX hY => ?_⟩
  obtain ⟨par, hpar0, rfl⟩ : ∃ par : Par, par.toBfvParameters = par0 ∧ par.addr = addr := ⟨⟨par0, addr⟩, rfl, rfl⟩
  subst hpar0
  have hQ0 : par.modulusAt 0 = 0x7fffffd8001 * 0x7fffffc8001 * 0xfffffffc001 * 0xffffff6c001 * 0xfffffebc001 := by unfold BfvParameters.modulusAt; rw [e4]; decide
  have hlen : par.moduli.length = 5 := by rw [e4]; rfl
  have hop : par.nttOperator ≠ none := (C34_available hb h).2 hl (by rw [e6]; norm_num) (by rw [e6]; norm_num) (by rw [e6, e3])
  have hrel : par.toBfvParameters.Reliable 0 := ⟨by rw [e4]; decide, by rw [e4]; decide, by rw [e6, hQ0]; decide, fun _ q hq => by rw [e4] at hq; cases hq; rw [e6]; decide⟩
  choose sk s hsk hk hS using fun k => C37_secret_key hb h (hst k).1
  obtain ⟨ctx, hctx, hnew, -⟩ := (C31_levels hb h 0).1 (by omega)
  obtain ⟨n', hn', hwf, hmod⟩ := Context.new_inv hb hnew
  rw [Nat.sub_zero, List.take_length] at hmod
  have hdeg : ctx.degree = par.degree := by rw [hwf.level.degree, ← hn']
  have hcrp : ∀ rows, IsRows 8192 par.moduli rows → ∃ crp, CommonRandomPoly.newLeveled par 0 rows = Res.ok crp ∧ crp.poly.Valid ∧ par.contextAtLevel 0 = Res.ok crp.poly.ctx := by
    intro rows hrows
    obtain ⟨h1, h2⟩ := List.forall₂_iff_get.1 hrows
    obtain ⟨crp, c1, c2, c3, -⟩ := C51_crp hb h hctx (rows := rows) (by rw [hmod]; exact h1.symm) (fun j q row hq hrow => by
      rw [hmod] at hq
      obtain ⟨p1, p2⟩ := List.getElem?_eq_some_iff.1 hq
      obtain ⟨p3, p4⟩ := List.getElem?_eq_some_iff.1 hrow
      have := h2 j p1 p3
      rw [hdeg, e3]
      simpa only [List.get_eq_getElem, p2, p4] using this)
    exact ⟨crp, c1, c3, c2 ▸ hctx⟩
  obtain ⟨crp, hc1, hc2, hc3⟩ := hcrp rows hrows
  choose crpf hf1 hf2 hf3 using fun j => hcrp _ (hrowss j)
  have hvec : CommonRandomPoly.newVec par rowss = Res.ok ((List.range par.moduli.length).map crpf) := by
    unfold CommonRandomPoly.newVec
    simp only [hf1]
    exact List.mapM_pure
  obtain ⟨share, pk, gen, r1, R1, r2, rk, a1, a2, a3, a4, a5, a6, a7, a8, a9, a10, a11, a12, a13⟩ := C66_compute hb h hrel hK hk hS (by omega) hc3 hc2 (crps := (List.range par.moduli.length).map crpf)
    (by simp) (fun c hc => by obtain ⟨j, -, rfl⟩ := List.mem_map.1 hc; exact ⟨hf2 j, hf3 j⟩) (rng := rng) (rngU := rngU) (fun k => (hst k).2.1) (fun k => (hst k).2.2.1) (rng0 := rng0) (rng1 := rng1) (rng2 := rng2)
    (rng3 := rng3) (fun k j => (hst' k j).1) (fun k j => (hst' k j).2.1) (fun k j => (hst' k j).2.2.1) (fun k j => (hst' k j).2.2.2)
  obtain ⟨mp, hmp⟩ := a8 hl
  obtain ⟨ζ, -, q1, -⟩ := C34_simd hb h hop
  obtain ⟨mx, -, qx, -⟩ := q1 x 0 (by omega) (by rw [e6]; exact hx') (by omega) (by rw [e6, hQ0]; decide)
  obtain ⟨my, -, qy, -⟩ := q1 y 0 (by omega) (by rw [e6]; exact hy') (by omega) (by rw [e6, hQ0]; decide)
  obtain ⟨px, x1, x2, x3, x4⟩ := qx false
  obtain ⟨py, y1, y2, y3, y4⟩ := qy false
  rw [padTo_of_length (by omega)] at x4 y4
  obtain ⟨cx, x5⟩ := a12 0 mx px _ _ _ (le_refl _) x2 hX.1 hX.2.1 hX.2.2
  obtain ⟨cy, y5⟩ := a12 0 my py _ _ _ (le_refl _) y2 hY.1 hY.2.1 hY.2.2
  let E : Circuit.Env := ⟨fun _ k => if k = 0 then cx else cy, fun _ _ => px, fun _ _ => ⟨rk.ksk, rk.ksk⟩, fun _ => rk, fun _ => mp, fun _ => ⟨par, 0, 0, [], [], []⟩⟩
  let D : Circuit.Data par := ⟨fun _ k => if k = 0 then mx else my, fun _ _ => collectiveNoise par K (2 * par.variance), fun _ _ => mx, fun _ _ => mx, K * (2 * par.variance),
    collectiveKeyError par K (2 * par.variance), fun _ => 0⟩
  have hE : E.Under b D 0 pk rk := by
    refine ⟨fun j k hj => ?_, fun j k hj => ?_, rfl, hmp⟩
    · obtain rfl : j = 0 := by omega
      by_cases hk0 : k = 0
      · subst hk0; exact ⟨px, _, _, _, x2, hX.1, hX.2.1, hX.2.2, x5⟩
      · refine ⟨py, rY.u, rY.e1, rY.e2, ?_, hY.1, hY.2.1, hY.2.2, ?_⟩
        · show py.Holds par 0 (if k = 0 then mx else my)
          rw [if_neg hk0]; exact y2
        · show _ = Res.ok (if k = 0 then cx else cy)
          rw [if_neg hk0]; exact y5
    · obtain rfl : j = 0 := by omega
      exact x2
  let c : Circuit 0 := .multiply (.input 0 0) (.input 0 1)
  obtain ⟨r, z1, z2, -⟩ := a13 E D hE ⟨rfl, rfl, fun _ _ => rfl⟩ c ⟨rfl, trivial, trivial⟩
  have hroom : 2 ^ 62 * (c.noise E D + par.plaintext.value * (K * (2 * par.variance))) ≤ (2 ^ 61 - 1) * par.modulusAt 0 := by
    simp only [c, E, D, Circuit.noise, Circuit.productNoise, KeySwitchingKey.errorBound, KeySwitchingKey.ratio, collectiveNoise, collectiveKeyError, geom, Finset.sum_range_succ, Finset.sum_range_zero]
    rw [a9, a10, a11, e4, e3, e5, e6, hQ0]
    exact (Nat.mul_le_mul_left _ (productNoise20_mono hK')).trans (by decide +kernel)
  obtain ⟨share', pt, z3, z4, z5, z6⟩ := z2 hroom rngD fun k => (hst k).2.2.2
  refine ⟨sk, crp, _, share, pk, gen, r1, R1, r2, rk, mp, px, py, cx, cy, r, share', pt, hsk, hc1, hvec, a1, a2, a3, a4, a5, a6, a7, hmp, x1, y1, x5, y5, ?_, z3, z4, ?_⟩
  · exact z1
  · have hx0 : HasSlots par mx x := ⟨px, 0, 0, x2, x3, x4⟩
    have hy0 : HasSlots par my y := ⟨py, 0, 0, y2, y3, y4⟩
    have := C60_value_slots hb h hop (D := D) (ct := fun _ k => if k = 0 then x else y) (pt := fun _ _ => x) (rgsw := fun _ _ => x) (fun i k => by
      by_cases hk0 : k = 0
      · subst hk0; exact hx0
      · show HasSlots par (if k = 0 then mx else my) (if k = 0 then x else y)
        rw [if_neg hk0, if_neg hk0]; exact hy0) (fun _ _ => hx0) (fun _ _ => hx0) c z5 z6 0
    rw [this, e6]; rfl

/-- Three parties: the squares of a vector. -/
example : ∃ (par : Par) (sk : Fin 3 → SecretKey) (r : Ciphertext) (share : Fin 3 → DecryptionShare) (pt : Plaintext), (∀ k, SecretKey.random par exRng = some (sk k)) ∧
    (∀ k, DecryptionShare.new (sk k) r exRng = Res.ok (share k)) ∧ DecryptionShare.aggregate (List.ofFn share) = Res.ok pt ∧ pt.decodeU64 (some ⟨.simd, 0⟩) = Res.ok (List.replicate 8192 1000000000000 |>.map (· % 1032193)) := by
  obtain ⟨l, par0, e1, e2, e3, e4, h⟩ := C66_product luckyBuild_ok luckyBuild_lucky
  have hx : ∀ a ∈ List.replicate 8192 1000000, a < 1032193 := fun a ha => by rw [List.eq_of_mem_replicate ha]; decide
  obtain ⟨l', -, par1, d1, -, d2, -, d4, -⟩ := default_20 luckyBuild_ok luckyBuild_lucky
  obtain rfl : l = l' := Res.ok_inj.1 (e1.symm.trans d1)
  obtain rfl : par0 = par1 := Option.some.inj (e2.symm.trans d2)
  have hrow : ∀ q, 5 < q → (List.replicate 8192 5).length = 8192 ∧ ∀ x ∈ List.replicate 8192 5, x < q := fun q hq => ⟨List.length_replicate, fun x hx => by rw [List.eq_of_mem_replicate hx]; exact hq⟩
  have hrows : IsRows 8192 par0.moduli (List.replicate 5 (List.replicate 8192 5)) := by
    rw [d4]
    exact .cons (hrow _ (by decide)) (.cons (hrow _ (by decide)) (.cons (hrow _ (by decide)) (.cons (hrow _ (by decide)) (.cons (hrow _ (by decide)) .nil))))
  obtain ⟨sk, _, _, _, _, _, _, _, _, _, _, _, _, _, _, r, share, pt, h1, -, -, -, -, -, -, -, -, -, -, -, -, -, -, -, h2, h3, h4⟩ := h 0 3 _ _ (by decide) (by decide) List.length_replicate List.length_replicate hx hx
    _ (fun _ => _) hrows (fun _ => hrows) (fun _ => exRng) (fun _ => exRng) (fun _ => exRng) (fun _ => exRng) (fun _ _ => exRng) (fun _ _ => exRng) (fun _ _ => exRng) (fun _ _ => exRng) ⟨exRng, exRng, exRng⟩ ⟨exRng, exRng, exRng⟩
    (fun _ => ⟨exRng_ok, exRng_ok, exRng_ok, exRng_ok⟩) (fun _ _ => ⟨exRng_ok, exRng_ok, exRng_ok, exRng_ok⟩) ⟨exRng_ok, exRng_ok, exRng_ok⟩ ⟨exRng_ok, exRng_ok, exRng_ok⟩
  refine ⟨⟨par0, 0⟩, sk, r, share, pt, h1, h2, h3 1, ?_⟩
  rw [h4, List.zipWith_replicate, List.map_replicate]
  rfl

end Fhe.Props
