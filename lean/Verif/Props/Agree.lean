import Verif.Lemmas.Agree
import Verif.Props.Interchange
import Verif.Props.BfvMultiplicator
/-!
# Multiplicators and operators agree

A default multiplicator computes what the multiplication of ciphertexts, relinearization and modulus switching compute one after the other: not only
an encryption of the same message, but the same ciphertext.
-/
namespace Fhe.Props
open Nega ParamsBuilder Ciphertext

variable {b : Build} {st : ParamsBuilder} {par : Par} {x y : Ciphertext} {g : Prg} {k : RelinearizationKey} {mp : Multiplicator}

/-- C86: the default multiplicator of a relinearization key returns what relinearizing the product of the ciphertexts returns, and with switching enabled
what switching down afterwards returns: the same error, or a ciphertext equal by `==`.  The moduli above the level must not have 62 bits: they may be chosen
for the basis of the multiplicator, while the operator never uses them. -/
theorem C86_default (hb : b.OK) (h : build b st = Res.ok par.toBfvParameters) (hcount : par.moduli.length ≤ 31) (hsum : par.moduli.sum ≤ 2 ^ 65) (hk : k.ksk.WellFormed g par)
    (hlarge : ∀ q ∈ par.moduli.drop (par.moduli.length - k.ksk.ciphertextLevel), q < 2 ^ 61) (hmp : Multiplicator.default b k = Res.ok mp)
    (hx : x.Usable par) (hy : y.Usable par) (hxi : x.level = k.ksk.ciphertextLevel) (hyi : y.level = k.ksk.ciphertextLevel) (hx2 : x.c.length = 2) (hy2 : y.c.length = 2) :
    ∃ r, x.mul y = some r ∧ Res.Same (fun u w => u.beq w = true) (mp.multiply x y) (k.relinearizes r) ∧
      ∀ mp', mp.enableModSwitching = Res.ok mp' → Res.Same (fun u w => u.beq w = true) (mp'.multiply x y) (do (← k.relinearizes r).switchDown) := by
  obtain ⟨n, hw, -, -, -, hasm, -⟩ := build_inv hb h
  obtain ⟨l, ha, hc⟩ := AtLevel.ofContext hw hk.ctx
  have hd := Multiplicator.default_scalers hw hasm ha hk.par_eq rfl hlarge hmp
  obtain ⟨r, r', e1, e2, e3, e4⟩ := Multiplicator.multiply_mul hw hcount hsum ha hx hy hxi hyi hx2 hy2
  obtain ⟨u1, u2⟩ := e3.usable hw (by omega)
  have hmul : mp.multiply x y = k.relinearizes r := by
    rw [hd]
    exact Multiplicator.multiply_key (mp := ⟨par, l.mul.extender, l.mul.extender, l.mul.downScaler, l.ctx, l.mul.dst, some k, false, k.ksk.ciphertextLevel⟩) e1
      (by rw [hk.par_eq]; exact u1.validateFor hw) rfl
  have hrel := RelinearizationKey.relinearizes_alike hw (hk.alike hw hk (C75_equivalence.2.2.1.refl k)) e3
  refine ⟨r', e2, ?_, fun mp' hmp' => ?_⟩
  · rw [hmul]
    exact hrel.imp fun _ _ e => e.beq
  · have hmp2 : mp' = { mp with modSwitch := true } := by
      unfold Multiplicator.enableModSwitching at hmp'
      obtain ⟨_, -, h1⟩ := Res.bind_eq_ok.1 hmp'
      obtain ⟨_, -, h1⟩ := Res.bind_eq_ok.1 h1
      split at h1
      · cases h1
      · rw [Res.pure_eq, Res.ok_inj] at h1
        exact h1.symm
    have hmp3 : ({ mp with modSwitch := false } : Multiplicator) = mp := by rw [hd]
    rw [hmp2, Multiplicator.multiply_down, hmp3, hmul]
    exact hrel.bind fun u w e => (e.switchDown hw).imp fun _ _ ⟨_, e⟩ => e.beq

/-- C86: at level 0 no condition on the moduli is needed. -/
theorem C86_level_zero (hb : b.OK) (h : build b st = Res.ok par.toBfvParameters) (hcount : par.moduli.length ≤ 31) (hsum : par.moduli.sum ≤ 2 ^ 65) (hk : k.ksk.WellFormed g par) (h0 : k.ksk.ciphertextLevel = 0)
    (hmp : Multiplicator.default b k = Res.ok mp) (hx : x.Usable par) (hy : y.Usable par) (hxi : x.level = 0) (hyi : y.level = 0) (hx2 : x.c.length = 2) (hy2 : y.c.length = 2) :
    ∃ r, x.mul y = some r ∧ Res.Same (fun u w => u.beq w = true) (mp.multiply x y) (k.relinearizes r) ∧
      ∀ mp', mp.enableModSwitching = Res.ok mp' → Res.Same (fun u w => u.beq w = true) (mp'.multiply x y) (do (← k.relinearizes r).switchDown) :=
  C86_default hb h hcount hsum hk (by rw [h0, Nat.sub_zero, List.drop_length]; simp) hmp hx hy (by rw [hxi, h0]) (by rw [hyi, h0]) hx2 hy2

example : ∃ (par : Par) (sk : SecretKey) (m m' : par.Msg) (x y r t u : Ciphertext) (k : RelinearizationKey) (mp : Multiplicator) (pt : Plaintext), build luckyBuild exBuilder = Res.ok par.toBfvParameters ∧
    msgCoeffs m = [1, 2, 16, 0, 0, 0, 0, 0] ∧ msgCoeffs m' = [5, 4, 3, 0, 0, 0, 0, 0] ∧ x.mul y = some r ∧ k.relinearizes r = Res.ok t ∧ Multiplicator.default luckyBuild k = Res.ok mp ∧ mp.multiply x y = Res.ok u ∧
    u.beq t = true ∧ sk.tryDecrypt luckyBuild u = Res.ok pt ∧ pt.Holds par 0 (m * m') := by
  obtain ⟨par, sk, s, pt, pt', m, m', ct, ct', v, v', h, hd, ht, hm, hrel, hk, hs, e2, e2', em, em', f1, f1', f2, f2', f3, f3', f4, f4', f5, f6, h0, hvar⟩ := exCipher
  have hb := luckyBuild_ok
  obtain ⟨n, hw, -⟩ := build_inv hb h
  obtain ⟨k, q1, q2⟩ := C55_relin_generated (i := 0) (j := 0) hb h (by rw [hm]; decide) hk exPrg_ok (seed := List.replicate 32 3) rfl (rngs := fun _ => exRng) (fun _ => exRng_ok) (by rw [hm]; decide) (by omega) (by rw [hm]; decide)
  obtain ⟨k0, p3, p4, p5⟩ := (C41_new (i := 0) (j := 0) hb h (by rw [hm]; decide) hk exPrg_ok (List.replicate 32 3) (rngs := fun _ => exRng) (fun _ => exRng_ok)).1 (by rw [hm]; decide) (by omega) (by rw [hm]; decide)
  rw [q1, Res.ok_inj] at p3
  subst p3
  obtain ⟨k1, k2⟩ := C39_default hb h hrel.count hrel.sum p4
  obtain ⟨mp, hmp⟩ := k1 luckyBuild_lucky
  obtain ⟨u, w, r1, r2, r3, r4, r5, -⟩ := k2 mp hmp f2 f2' f4 f4' hs f3 f3'
  obtain ⟨pt, k6, k7, -⟩ := C37_decrypt hb h hrel hk r2 (small_of_bounded r5 (by
    unfold relinNoise mulNoise mulHeight KeySwitchingKey.errorBound KeySwitchingKey.ratio
    rw [p5, p4.level, p4.keyLevel, h0, ht, hd, hm, hvar]
    decide))
  obtain ⟨r, g1, g2, -⟩ := C86_level_zero hb h hrel.count hrel.sum q2 p4.level hmp (f2.usable hw) (f2'.usable hw) f2.level_eq f2'.level_eq f4 f4'
  rw [r1] at g2
  rcases Res.cases (k.relinearizes r) with ⟨t, e⟩ | ⟨e', e⟩ | e <;> rw [e] at g2 <;> cases g2
  rename_i g2
  exact ⟨par, sk, m, m', ct, ct', r, t, u, k, mp, pt, h, em, em', g1, e, hmp, r1, g2, k6, k7⟩

end Fhe.Props
