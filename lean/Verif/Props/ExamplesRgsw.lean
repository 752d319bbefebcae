import Verif.Lemmas.Examples
import Verif.Lemmas.ExamplesParams
import Verif.Lemmas.Pir
import Verif.Props.BfvRgsw
import Verif.Props.Wire
/-!
# Property C65: the RGSW example
-/
namespace Fhe.Props
open Nega Poly ParamsBuilder Ciphertext

variable {b : Build} {par : Par} {st : ParamsBuilder} {s : IntPoly par.degree} {g : Prg}

/-- Plaintexts at different levels are not equal. -/
theorem beq_levels (hb : b.OK) (h : build b st = Res.ok par.toBfvParameters) {p e : Plaintext} {i j : Nat} {m m' : par.Msg} (hp : p.Holds par i m) (he : e.Holds par j m') (hij : i ≠ j) : p.beq e = false := by
  obtain ⟨n, hw, -⟩ := build_inv hb h
  by_contra hc
  rw [Bool.not_eq_false] at hc
  simp only [Plaintext.beq, Poly.beq, Bool.and_eq_true, decide_eq_true_eq] at hc
  obtain ⟨l, hl, e1⟩ := ParWF.contextAtLevel_iff.1 hp.ctx
  obtain ⟨l', hl', e2⟩ := ParWF.contextAtLevel_iff.1 he.ctx
  have a1 := AtLevel.ofGet hw hl
  have a2 := AtLevel.ofGet hw hl'
  have := a1.length
  have h3 := a2.length
  rw [e1, hc.1.2.1.1.1] at this
  rw [e2, this] at h3
  have := a1.lt
  have := a2.lt
  omega

/-- The steps of the program up to the two products. -/
theorem rgsw_steps (hb : b.OK) (h : build b st = Res.ok par.toBfvParameters) (hlen : 2 ≤ par.moduli.length) (hr : par.toBfvParameters.Reliable 0) (hop : par.nttOperator ≠ none) (hg : g.OK) {v1 v2 : List Nat}
    (hN1 : v1.length ≤ par.degree) (hN2 : v2.length ≤ par.degree) (hv1 : ∀ x ∈ v1, x < par.plaintext.value) (hv2 : ∀ x ∈ v2, x < par.plaintext.value) {r : Rgsw.Random} (hR : r.OK) :
    ∃ (s : IntPoly par.degree) (sk : SecretKey) (m : par.Msg) (pt1 pt2 : Plaintext) (ct1 ct2 : Ciphertext) (rg : RgswCiphertext) (product expected switched : Ciphertext) (w w' w'' : IntPoly par.degree),
      s.Bounded (2 * par.variance) ∧ sk.IsKey par s ∧ SecretKey.random par r.secret = some sk ∧ Plaintext.tryEncodeU64 v1 ⟨.simd, 0⟩ par false = Res.ok pt1 ∧ Plaintext.tryEncodeU64 v2 ⟨.simd, 0⟩ par false = Res.ok pt2 ∧
      sk.tryEncrypt g pt1 r.seed1 r.rng1 = Res.ok ct1 ∧ sk.tryEncrypt g pt2 r.seed2 r.rng2 = Res.ok ct2 ∧ sk.tryEncryptRgsw b g pt2 r.rgswSeed0 r.rgswSeed1 r.rgsw0 r.rgsw1 = Res.ok rg ∧
      ct1.mulRgsw rg = some product ∧ ct1.mul ct2 = some expected ∧ product.par.maxLevel = some (par.moduli.length - 1) ∧ product.switchToLevel (par.moduli.length - 1) = Res.ok switched ∧
      product.Encrypts par s 0 m w ∧ product.seed = none ∧ w.Bounded (externalNoise par) ∧ switched.Encrypts par s (par.moduli.length - 1) m w' ∧ switched.seed = none ∧
      (∀ j, (par.modulusAt 0 : Int) * |w' j| ≤ par.modulusAt (par.moduli.length - 1) * externalNoise par +
        (par.modulusAt 0 - par.modulusAt (par.moduli.length - 1)) * (par.plaintext.value * geom (par.degree * (2 * par.variance)) 2)) ∧
      expected.Encrypts par s 0 m w'' ∧ w''.Bounded (mulNoise par 0 (2 * par.variance) 2 2 (par.plaintext.value * (2 * par.variance + 1)) (par.plaintext.value * (2 * par.variance + 1))) ∧
      ∀ (pt : Plaintext) (level : Nat), pt.Holds par level m → pt.encoding = none →
        pt.decodeU64 (some ⟨.simd, 0⟩) = Res.ok (List.ofFn fun i : Fin par.degree => v1.getD i 0 * v2.getD i 0 % par.plaintext.value) := by
  obtain ⟨n, hw, -⟩ := build_inv hb h
  have hQ : par.plaintext.value ≤ par.modulusAt 0 := by have := hr.modulus; omega
  obtain ⟨sk, s, a1, a2, a3⟩ := C37_secret_key (par := par) hb h hR.secret
  obtain ⟨ζ, z1, z2, z3, z4, -⟩ := slot_tools hb h hop hQ
  obtain ⟨m1, pt1, i1, i2, i3⟩ := z1 v1 hN1 hv1
  obtain ⟨m2, pt2, i1', i2', i3'⟩ := z1 v2 hN2 hv2
  obtain ⟨ct1, w1, e1, e2, e3, e4, -⟩ := C37_encrypt hb h a2 hg hQ i3 hR.first.1 hR.first.2
  obtain ⟨ct2, w2, e1', e2', e3', e4', -⟩ := C37_encrypt hb h a2 hg hQ i3' hR.second.1 hR.second.2
  obtain ⟨rg, f1, f2, f3⟩ := C45_encrypt hb h a2 hg i3' r.rgswSeed0 r.rgswSeed1 (fun i => (hR.rgsw i).1) fun i => (hR.rgsw i).2
  obtain ⟨f3, f4⟩ := f3 (by omega)
  rw [Nat.sub_zero, List.take_length] at f3 f4
  obtain ⟨product, w, g1, g2, g3, g4⟩ := C45_bound hb h f2 e2 e4 e3
  obtain ⟨product', W, g1', -, -, g5, -⟩ := C45_product hb h f2 e2 e4
  obtain rfl : product = product' := Option.some.inj (g1.symm.trans g1')
  rw [f3, f4] at g4
  obtain ⟨expected, w'', j1, j2, j3, j4⟩ := C39_bound hb h hr.count hr.sum e2 e2' (by rw [e4]; norm_num) a3 e3 e3'
  rw [e4, e4'] at j4
  obtain ⟨switched, w', k1, k2, k3, k4⟩ := C46_switch_to_level hb h g2 (target := par.moduli.length - 1) (by omega) (by omega) a3 g4
  have hmax : product.par.maxLevel = some (par.moduli.length - 1) := by rw [g2.par_eq]; unfold BfvParameters.maxLevel; rw [hw.length, subU_eq (by omega)]
  rw [g3] at k4
  refine ⟨s, sk, m1 * m2, pt1, pt2, ct1, ct2, rg, product, expected, switched, w, w', w'', a3, a2, a1, i2, i2', e1, e1', f1, g1, j1, hmax, k1, g2, g5, g4, k2, ?_, k4, j2, j4, fun pt level hm he => ?_⟩
  · obtain ⟨r', x, q1, -, -, q2, -⟩ := Ciphertext.switchLoop_eq hw a3 (par.moduli.length - 1) g2 (by omega)
    have hlvl : product.level = 0 := g2.level_eq
    have : product.switchToLevel (par.moduli.length - 1) = product.switchLoop (par.moduli.length - 1) := by
      unfold Ciphertext.switchToLevel
      rw [hmax, Res.lift_some, Res.ok_bind, hlvl, if_neg (by omega), if_neg (by omega), Nat.sub_zero]
    rw [this, q1] at k1
    rw [← Res.ok_inj.1 k1, q2, if_neg (by omega)]
  · rw [z2 pt level _ hm he]
    congr 2
    funext i
    rw [z4, i1 i i.isLt, i1' i i.isLt, ← Nat.cast_mul, ZMod.val_natCast]

/-- C65, `rgsw.rs`: with two or more moduli the program never succeeds, whatever the vectors and the random choices: the two plaintexts
that it compares are at different levels, and equality of plaintexts compares the levels. -/
theorem C65_rgsw_fails (hb : b.OK) (h : build b st = Res.ok par.toBfvParameters) (hlen : 2 ≤ par.moduli.length) (hr : par.toBfvParameters.Reliable 0)
    (hlast : par.plaintext.value ≤ par.modulusAt (par.moduli.length - 1)) (hop : par.nttOperator ≠ none) (hg : g.OK) {v1 v2 : List Nat} (hN1 : v1.length ≤ par.degree) (hN2 : v2.length ≤ par.degree)
    (hv1 : ∀ x ∈ v1, x < par.plaintext.value) (hv2 : ∀ x ∈ v2, x < par.plaintext.value) {r : Rgsw.Random} (hR : r.OK) : ∀ l, Rgsw.main b g par v1 v2 r ≠ Res.ok l := by
  intro l hok
  obtain ⟨n, hw, -⟩ := build_inv hb h
  have hQ : par.plaintext.value ≤ par.modulusAt 0 := by have := hr.modulus; omega
  obtain ⟨s, sk, m, pt1, pt2, ct1, ct2, rg, product, expected, switched, w, w', w'', -, hk, a1, a2, a3, a4, a5, a6, a7, a8, a9, a10, p1, p2, -, q1, q2, -, r1, -, -⟩ :=
    rgsw_steps hb h hlen hr hop hg hN1 hN2 hv1 hv2 hR
  have key : ∀ {ct : Ciphertext} {i : Nat} {v : IntPoly par.degree}, ct.Encrypts par s i m v → par.plaintext.value ≤ par.modulusAt i → ∃ pt m, sk.tryDecrypt b ct = Res.ok pt ∧ pt.Holds par i m := by
    intro ct i v hct hQ
    have hwf : ({ ct with seed := none } : Ciphertext).WellFormed g par := C47_wellFormed hb h (ct := { ct with seed := none }) ⟨hct.par_eq, hct.level_eq, hct.parts, hct.phase⟩ rfl
    obtain ⟨pt, m, e1, e2⟩ := tryDecrypt_total hw hr.count hr.sum hk hct.par_eq hwf.level (by rw [hct.level_eq]; exact hQ) hct.parts hwf.valid
    rw [hct.level_eq] at e2
    exact ⟨pt, m, e1, e2⟩
  obtain ⟨p, mp, d1, d2⟩ := key q1 hlast
  obtain ⟨e, me, d3, d4⟩ := key r1 hQ
  have hne := beq_levels hb h d2 d4 (by omega)
  unfold Rgsw.main Rgsw.products at hok
  rw [a1, Res.lift_some, Res.ok_bind, a2, Res.ok_bind, a3, Res.ok_bind, a4, Res.ok_bind, a5, Res.ok_bind, a6, Res.ok_bind, a7, Res.lift_some, Res.ok_bind, a8, Res.lift_some, Res.ok_bind] at hok
  obtain ⟨⟨x, y⟩, hxy, hok⟩ := Res.bind_eq_ok.1 hok
  obtain ⟨k1, -, hxy⟩ := Res.bind_eq_ok.1 hxy
  obtain ⟨k2, -, hxy⟩ := Res.bind_eq_ok.1 hxy
  obtain ⟨k3, -, hxy⟩ := Res.bind_eq_ok.1 hxy
  rw [a9, Res.lift_some, Res.ok_bind, a10, Res.ok_bind] at hxy
  obtain ⟨k4, -, hxy⟩ := Res.bind_eq_ok.1 hxy
  obtain ⟨k5, -, hxy⟩ := Res.bind_eq_ok.1 hxy
  rw [d1, Res.ok_bind, d3, Res.ok_bind] at hxy
  obtain ⟨rfl, rfl⟩ := Prod.ext_iff.1 (Res.ok_inj.1 hxy)
  simp only [check, hne, Bool.false_eq_true, if_false, Res.lift_none, Res.panic_bind] at hok
  exact Res.panic_ne_ok hok

/-- C65, `rgsw.rs`: if the noise leaves room, both products decrypt to the products of the slots, and yet the program panics, in its assertion that
the two plaintexts are equal. -/
theorem C65_rgsw (hb : b.OK) (h : build b st = Res.ok par.toBfvParameters) (hlen : 2 ≤ par.moduli.length) (hr : par.toBfvParameters.Reliable 0)
    (hlast : 2 * par.plaintext.value ≤ par.modulusAt (par.moduli.length - 1)) (hop : par.nttOperator ≠ none) (hg : g.OK) {v1 v2 : List Nat} (hN1 : v1.length ≤ par.degree) (hN2 : v2.length ≤ par.degree)
    (hv1 : ∀ x ∈ v1, x < par.plaintext.value) (hv2 : ∀ x ∈ v2, x < par.plaintext.value) (hroom : RgswRoom par) {r : Rgsw.Random} (hR : r.OK) :
    ∃ p e, Rgsw.products b g par v1 v2 r = Res.ok (p, e) ∧ p.decodeU64 (some ⟨.simd, 0⟩) = Res.ok (List.ofFn fun i : Fin par.degree => v1.getD i 0 * v2.getD i 0 % par.plaintext.value) ∧
      e.decodeU64 (some ⟨.simd, 0⟩) = Res.ok (List.ofFn fun i : Fin par.degree => v1.getD i 0 * v2.getD i 0 % par.plaintext.value) ∧
      p.beq e = false ∧ Rgsw.main b g par v1 v2 r = Res.panic := by
  obtain ⟨n, hw, -⟩ := build_inv hb h
  obtain ⟨s, sk, m, pt1, pt2, ct1, ct2, rg, product, expected, switched, w, w', w'', -, hk, a1, a2, a3, a4, a5, a6, a7, a8, a9, a10, p1, p2, p3, q1, q2, q3, r1, r2, hdec⟩ :=
    rgsw_steps hb h hlen hr hop hg hN1 hN2 hv1 hv2 hR
  have hrl : par.toBfvParameters.Reliable (par.moduli.length - 1) := ⟨hr.count, hr.sum, hlast, hr.first⟩
  have small : ∀ {v : IntPoly par.degree} {V : Nat}, v.Bounded V → Room par V → v.Small (par.modulusAt 0) := by
    intro v V hv hV j
    have h1 := hv j
    unfold Room at hV
    norm_num at hV
    have : (4611686018427387904 : Int) * (V : Int) ≤ 2305843009213693951 * (par.modulusAt 0 : Int) := by exact_mod_cast hV
    norm_num
    linarith
  have hs1 := small p3 hroom.external
  have hs3 := small r2 hroom.product
  have hs2 : w'.Small (par.modulusAt (par.moduli.length - 1)) := by
    intro j
    obtain ⟨l, hl⟩ := AtLevel.ofLt hw (i := 0) (by omega)
    obtain ⟨l', hl'⟩ := AtLevel.ofLt hw (i := par.moduli.length - 1) (by omega)
    have hle : par.modulusAt (par.moduli.length - 1) ≤ par.modulusAt 0 := by
      obtain ⟨h5, h6, -⟩ := modulusAt_ratio hw hl' hl (by omega)
      rw [h5]; exact Nat.le_mul_of_pos_left _ h6
    have hQ : 0 < par.modulusAt 0 := hl.pos
    have h1 := q3 j
    have h2 := hroom.switched
    norm_num at h2
    zify [hle] at h2
    have h3 : (par.modulusAt 0 : Int) * (2 ^ 62 * |w' j|) ≤ par.modulusAt 0 * ((2 ^ 61 - 1) * par.modulusAt (par.moduli.length - 1)) := by
      norm_num
      nlinarith
    exact le_of_mul_le_mul_left h3 (by exact_mod_cast hQ)
  obtain ⟨k1, -, n1, -⟩ := C59_measure_noise hb h hr hk p1 hs1
  obtain ⟨k2, -, n2, -⟩ := C59_measure_noise hb h hrl hk q1 hs2
  have h32 : par.moduli.length ≤ 2 ^ 32 := by have := hr.count; omega
  obtain ⟨b1, -, t1, -⟩ := C62_ciphertext hb h h32 (C47_wellFormed (g := g) hb h p1 p2)
  obtain ⟨b2, -, t2, -⟩ := C62_ciphertext hb h h32 (C47_wellFormed (g := g) hb h q1 q2)
  obtain ⟨p, d1, d2, d3⟩ := C37_decrypt hb h hrl hk q1 hs2
  obtain ⟨e, d1', d2', d3'⟩ := C37_decrypt hb h hr hk r1 hs3
  have hne := beq_levels hb h d2 d2' (by omega)
  have hprod : Rgsw.products b g par v1 v2 r = Res.ok (p, e) := by
    unfold Rgsw.products
    rw [a1, Res.lift_some, Res.ok_bind, a2, Res.ok_bind, a3, Res.ok_bind, a4, Res.ok_bind, a5, Res.ok_bind, a6, Res.ok_bind, a7, Res.lift_some, Res.ok_bind, a8, Res.lift_some, Res.ok_bind, n1, Res.ok_bind, t1,
      Res.lift_some, Res.ok_bind, Res.ok_bind, a9, Res.lift_some, Res.ok_bind, a10, Res.ok_bind, n2, Res.ok_bind, t2, Res.lift_some, Res.ok_bind, d1, Res.ok_bind, d1', Res.ok_bind]
    rfl
  refine ⟨p, e, hprod, hdec p _ d2 d3, hdec e _ d2' d3', hne, ?_⟩
  unfold Rgsw.main
  rw [hprod, Res.ok_bind]
  simp only [check, hne, Bool.false_eq_true, if_false, Res.lift_none, Res.panic_bind]

theorem ofFn_cast {n m : Nat} (h : n = m) (f : Nat → Nat) : (List.ofFn fun i : Fin n => f i) = List.ofFn fun i : Fin m => f i := by subst h; rfl

/-- C65, `rgsw.rs` with its own parameters: the program never succeeds.  With the next set of predefined parameters, where the bounds on the noise leave
room, it panics although both products are right. -/
theorem C65_rgsw_program (hb : b.OK) (hl : b.Lucky) (hg : g.OK) :
    ∃ l par0 par1, defaultParameters128 b 20 = Res.ok l ∧ l[2]? = some par0 ∧ par0.degree = 4096 ∧ par0.plaintext.value = 1032193 ∧ l[3]? = some par1 ∧ par1.degree = 8192 ∧ par1.plaintext.value = 1032193 ∧
      (∀ (addr : Nat) (v1 v2 : List Nat) (r : Rgsw.Random), v1.length ≤ 4096 → v2.length ≤ 4096 → (∀ x ∈ v1, x < 1032193) → (∀ x ∈ v2, x < 1032193) → r.OK → ∀ o, Rgsw.main b g ⟨par0, addr⟩ v1 v2 r ≠ Res.ok o) ∧
      ∀ (addr : Nat) (v1 v2 : List Nat) (r : Rgsw.Random), v1.length ≤ 8192 → v2.length ≤ 8192 → (∀ x ∈ v1, x < 1032193) → (∀ x ∈ v2, x < 1032193) → r.OK →
        ∃ p e, Rgsw.products b g ⟨par1, addr⟩ v1 v2 r = Res.ok (p, e) ∧ p.decodeU64 (some ⟨.simd, 0⟩) = Res.ok (List.ofFn fun i : Fin 8192 => v1.getD i 0 * v2.getD i 0 % 1032193) ∧
          e.decodeU64 (some ⟨.simd, 0⟩) = Res.ok (List.ofFn fun i : Fin 8192 => v1.getD i 0 * v2.getD i 0 % 1032193) ∧ p.beq e = false ∧ Rgsw.main b g ⟨par1, addr⟩ v1 v2 r = Res.panic := by
  obtain ⟨l, par0, par1, e1, ⟨e2, e3, e4, e5, e6, h⟩, e2', e3', e4', e5', e6', h'⟩ := default_20 hb hl
  refine ⟨l, par0, par1, e1, e2, e3, e6, e2', e3', e6', fun addr v1 v2 r a1 a2 a3 a4 hR => ?_, fun addr v1 v2 r a1 a2 a3 a4 hR => ?_⟩
  · obtain ⟨par, hpar0, rfl⟩ : ∃ par : Par, par.toBfvParameters = par0 ∧ par.addr = addr := ⟨⟨par0, addr⟩, rfl, rfl⟩
    subst hpar0
    have hQ0 : par.modulusAt 0 = 0xffffee001 * 0xffffc4001 * 0x1ffffe0001 := by unfold BfvParameters.modulusAt; rw [e4]; decide
    have hQ2 : par.modulusAt (par.moduli.length - 1) = 0xffffee001 := by unfold BfvParameters.modulusAt; rw [e4]; decide
    have hop : par.nttOperator ≠ none := (C34_available hb h).2 hl (by rw [e6]; norm_num) (by rw [e6]; norm_num) (by rw [e6, e3])
    have hr : par.toBfvParameters.Reliable 0 := ⟨by rw [e4]; decide, by rw [e4]; decide, by rw [e6, hQ0]; decide, fun _ q hq => by rw [e4] at hq; cases hq; rw [e6]; decide⟩
    exact C65_rgsw_fails hb h (by rw [e4]; decide) hr (by rw [e6, hQ2]; decide) hop hg (by rw [e3]; exact a1) (by rw [e3]; exact a2) (by rw [e6]; exact a3) (by rw [e6]; exact a4) hR
  · obtain ⟨par, hpar0, rfl⟩ : ∃ par : Par, par.toBfvParameters = par1 ∧ par.addr = addr := ⟨⟨par1, addr⟩, rfl, rfl⟩
    subst hpar0
    have hQ0 : par.modulusAt 0 = 0x7fffffd8001 * 0x7fffffc8001 * 0xfffffffc001 * 0xffffff6c001 * 0xfffffebc001 := by unfold BfvParameters.modulusAt; rw [e4']; decide
    have hQ4 : par.modulusAt (par.moduli.length - 1) = 0x7fffffd8001 := by unfold BfvParameters.modulusAt; rw [e4']; decide
    have hop : par.nttOperator ≠ none := (C34_available hb h').2 hl (by rw [e6']; norm_num) (by rw [e6']; norm_num) (by rw [e6', e3'])
    have hr : par.toBfvParameters.Reliable 0 := ⟨by rw [e4']; decide, by rw [e4']; decide, by rw [e6', hQ0]; decide, fun _ q hq => by rw [e4'] at hq; cases hq; rw [e6']; decide⟩
    have hroom : RgswRoom par := by
      refine ⟨?_, ?_, ?_⟩
      · unfold Room externalNoise; rw [hQ0, e3', e4', e5', e6']; decide +kernel
      · unfold externalNoise; rw [hQ4, hQ0, e3', e4', e5', e6']; decide +kernel
      · unfold Room mulNoise mulHeight; rw [hQ0, e3', e5', e6']; decide +kernel
    obtain ⟨p, e, k1, k2, k3, k4, k5⟩ := C65_rgsw hb h' (by rw [e4']; decide) hr (by rw [e6', hQ4]; decide) hop hg (v1 := v1) (v2 := v2) (by rw [e3']; exact a1) (by rw [e3']; exact a2) (by rw [e6']; exact a3)
      (by rw [e6']; exact a4) hroom hR
    refine ⟨p, e, k1, ?_, ?_, k4, k5⟩
    · rw [e6'] at k2; exact k2.trans (congrArg Res.ok (ofFn_cast e3' fun i => v1.getD i 0 * v2.getD i 0 % 1032193))
    · rw [e6'] at k3; exact k3.trans (congrArg Res.ok (ofFn_cast e3' fun i => v1.getD i 0 * v2.getD i 0 % 1032193))

/-- The program with its own vectors, for some random choices. -/
example : ∃ l par0, defaultParameters128 luckyBuild 20 = Res.ok l ∧ l[2]? = some par0 ∧
    ∀ o, Rgsw.main luckyBuild exPrg ⟨par0, 0⟩ [1, 2, 3, 4] [5, 6, 7, 8] ⟨exRng, List.replicate 32 7, exRng, List.replicate 32 8, exRng, List.replicate 32 9, List.replicate 32 1, fun _ => exRng, fun _ => exRng⟩ ≠ Res.ok o := by
  obtain ⟨l, par0, -, e1, e2, -, -, -, -, -, h, -⟩ := C65_rgsw_program luckyBuild_ok luckyBuild_lucky exPrg_ok
  exact ⟨l, par0, e1, e2, h 0 _ _ _ (by decide) (by decide) (by decide) (by decide) ⟨exRng_ok, ⟨by simp, exRng_ok⟩, ⟨by simp, exRng_ok⟩, fun _ => ⟨exRng_ok, exRng_ok⟩⟩⟩

end Fhe.Props
