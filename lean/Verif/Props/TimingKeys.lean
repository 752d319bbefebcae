import Verif.Lemmas.TimedLeak
import Verif.Props.Scaler
import Verif.Props.BfvKeys
/-!
# C78: what decryption and the generation of keys reveal of the secret key

Decryption is not constant time.  `RnsScaler::scale` (`fhe-math/src/rns/scaler.rs` lines 304-313 and 334-337) jumps on the sign of an
intermediate value, once for each coefficient of the phase `c[0] + c[1] s + ...`.  These signs are exactly what the trace depends on: equal
signs give equal traces, and equal traces give equal signs.

Generating a relinearization key or a Galois key reveals nothing but the key, which is public: a run that returns `k` shows a trace that is a
function of `k` and public values only.  (The trace may depend on `k` because the code divides its coefficients, in
`compute_coefficients_shoup`.)
-/
namespace Fhe.Props
open Release ParamsBuilder RnsScaler RnsContext

variable {b : Build} {par : Par} {st : ParamsBuilder}

/-! ## Decryption -/

/-- A decryption reveals at most the signs `decryptionSigns`. -/
theorem C78_decrypt (hb : b.OK) (h : build b st = Res.ok par.toBfvParameters) (ht : par.plaintext.value < 2 ^ 64) (ct : Ciphertext) :
    RevealsOnly (fun sk => (Release.tryDecrypt b sk ct).run) (fun sk => (sk.tryDecrypt b ct).run)
      (fun sk => sk.par = par ∧ sk.coeffs.length = par.degree) (fun sk => decryptionSigns sk ct) := by
  obtain ⟨_, hw, -⟩ := build_inv hb h
  refine .of (fun _ => tryDecrypt_agrees _ _ _) fun x y _ _ hx hy _ _ he =>
    (tryDecrypt_indist b ⟨hx.1.trans hy.1.symm, hx.2.trans hy.2.symm⟩ ct ?_ he).1
  rw [hx.1]
  rcases hw.plaintext with ⟨m, -, -, h3⟩ | ⟨h1, -⟩
  · rw [h3]; simp
  · omega

/-- They are one bit per coefficient. -/
theorem C78_decrypt_bits (hb : b.OK) (h : build b st = Res.ok par.toBfvParameters) {sk : SecretKey} (hk : sk.par = par) {ct : Ciphertext} {pt : Plaintext}
    (hd : sk.tryDecrypt b ct = Res.ok pt) : (decryptionSigns sk ct).length = par.degree := by
  obtain ⟨_, hw, -⟩ := build_inv hb h
  subst hk
  exact decryptionSigns_length hw hd

/-- And it does reveal them: decryptions of one ciphertext with two keys that show the same trace have the same signs. -/
theorem C78_decrypt_reveals (hb : b.OK) (h : build b st = Res.ok par.toBfvParameters) (ct : Ciphertext) {sk sk' : SecretKey}
    (hk : sk.par = par ∧ sk.coeffs.length = par.degree) (hk' : sk'.par = par ∧ sk'.coeffs.length = par.degree) {pt pt' : Plaintext}
    (hd : sk.tryDecrypt b ct = Res.ok pt) (hd' : sk'.tryDecrypt b ct = Res.ok pt')
    (he : (Release.tryDecrypt b sk ct).run.trace = (Release.tryDecrypt b sk' ct).run.trace) : decryptionSigns sk ct = decryptionSigns sk' ct := by
  obtain ⟨_, hw, -⟩ := build_inv hb h
  refine tryDecrypt_reveals b ⟨hk.1.trans hk'.1.symm, hk.2.trans hk'.2.symm⟩ ct (fun l hl => ?_) (tryDecrypt_agrees b sk ct _ hd) (tryDecrypt_agrees b sk' ct _ hd') he
  rw [hk.1] at hl
  exact level_scaler hw hl

/-- The jump is real: scaling by 17 / (97 · 113) from the moduli 97, 113 to the modulus 97, as in a decryption with these parameters, shows
different traces for the coefficients 1000 and 3000. -/
theorem C78_scale_reveals : ∃ src dst f sc, RnsContext.new true [97, 113] = some (.ok src) ∧ RnsContext.new true [97] = some (.ok dst) ∧
    ScalingFactor.new 17 (97 * 113) = some f ∧ RnsScaler.new src dst f = some sc ∧
    (rnsScale sc [1000 % 97, 1000 % 113] 1 0).trace ≠ (rnsScale sc [3000 % 97, 3000 % 113] 1 0).trace := by
  obtain ⟨src, hs, hm, -⟩ := C19_new_ok (cfg := true) (l := [97, 113]) (by decide) (by decide) (by decide)
  obtain ⟨dst, ht, -⟩ := C19_new_ok (cfg := true) (l := [97]) (by decide) (by decide) (by decide)
  obtain ⟨h1, hl, -⟩ := WF_of_new hs
  obtain ⟨h2, hl', -⟩ := WF_of_new ht
  have hprod : src.product = 97 * 113 := by rw [h1.product, hl]; rfl
  have hg : src.garner = [10283, 679] := by
    refine List.ext_getElem (by rw [h1.len_garner, hl]; rfl) fun i hi hi' => ?_
    have hi7 : i < 2 := hi'
    have hil : i < src.moduliU64.length := by rw [← h1.len_garner]; exact hi
    refine h1.ext (h1.garner_lt _ (List.getElem_mem hi)) ?_ ?_
    · rw [hprod]
      have : ∀ g ∈ [10283, 679], g < 97 * 113 := by decide +kernel
      exact this _ (List.getElem_mem hi')
    · intro q hq
      obtain ⟨j, hj, rfl⟩ := List.getElem_of_mem hq
      have hgi : src.garner.getD i 0 = src.garner[i] := by simp [List.getD_eq_getElem?_getD, hi]
      have hj7 : j < 2 := by rw [hl] at hj; exact hj
      have key : ∀ i < 2, ∀ j < 2, [10283, 679].getD i 0 % [97, 113].getD j 0 = if i = j then 1 else 0 := by decide +kernel
      have hk := key i hi7 j hj7
      have e1 : [97, 113].getD j 0 = src.moduliU64[j] := by
        rw [List.getD_eq_getElem?_getD, List.getElem?_eq_getElem (show j < [97, 113].length from hj7), Option.getD_some]; simp only [hl]
      have e2 : [10283, 679].getD i 0 = [10283, 679][i]'hi' := by rw [List.getD_eq_getElem?_getD, List.getElem?_eq_getElem hi']; rfl
      rw [e1, e2] at hk
      refine Eq.trans ?_ hk.symm
      by_cases hij : i = j
      · subst hij
        rw [if_pos rfl, ← hgi]; exact h1.garner_self i hil
      · rw [if_neg hij, ← hgi]; exact Nat.mod_eq_zero_of_dvd (h1.garner_other i j hj hij)
  obtain ⟨sc, s, hsc, hSC⟩ := RnsScaler.new_eq h1 h2 (f := { numerator := 17, denominator := 97 * 113, isOne := false }) (by decide) (by rw [hl]; decide)
  have hs' : s = 127 := by
    have h3 := hSC.shift_eq
    rw [hl] at h3
    have : garnerShift [97, 113] = some 127 := by decide +kernel
    rw [this] at h3
    exact (Option.some.inj h3).symm
  subst hs'
  refine ⟨src, dst, _, sc, hs, ht, rfl, hsc, fun he => ?_⟩
  have he := rnsScale_reveals sc hSC.isOne (rests := [1000 % 97, 1000 % 113]) (rests' := [3000 % 97, 3000 % 113]) rfl 1 0 (A := []) (B := [])
    (congrArg (· ++ ([] : List Event)) he)
  unfold wNegative wSum at he
  rw [hSC.isOne, hSC.thetaOmegaLo, hSC.thetaOmegaHi, hSC.thetaOmegaSign, hSC.thetaGamma, hSC.thetaGammaSign, hSC.thetaGarnerLo, hSC.thetaGarnerHi,
      hSC.shift, hg, hprod] at he
  revert he
  decide +kernel

/-! ## Generation of keys -/

/-- Generating a relinearization key reveals the key and nothing else: the secrets are the secret key and the randomness. -/
theorem C78_relinearization_key (hb : b.OK) (h : build b st = Res.ok par.toBfvParameters) (h64 : par.moduli.length ≤ 64) {g : Prg} (hg : g.OK) {i j : Nat}
    (hi : i < par.moduli.length) (hij : j ≤ i) (seed : Seed) :
    ∃ tr : RelinearizationKey → List Event, ∀ (sk : SecretKey) (s : IntPoly par.degree) (rngs : Nat → Nat → Nat) (k : RelinearizationKey), sk.IsKey par s →
      (∀ i, IsStream (rngs i)) → RelinearizationKey.newLeveled b g sk i j seed rngs = Res.ok k → (Release.newRelin b g sk i j seed rngs).run = ⟨some (.ok k), tr k⟩ := by
  obtain ⟨_, hw, -⟩ := build_inv hb h
  have := reveals_output (ι := SecretKey × (Nat → Nat → Nat)) (run := fun x => (Release.newRelin b g x.1 i j seed x.2).run)
    (value := fun x => (RelinearizationKey.newLeveled b g x.1 i j seed x.2).run) (adm := fun x => (∃ s, x.1.IsKey par s) ∧ ∀ i, IsStream (x.2 i))
    (fun x => newRelin_agrees _ _ _ _ _ _ _) fun x x' k ⟨⟨s, hk⟩, hr⟩ ⟨⟨s', hk'⟩, hr'⟩ h1 h2 =>
      (newRelin_indist hw h64 hk hk' ⟨hk.par_eq.trans hk'.par_eq.symm, hk.length.trans hk'.length.symm⟩ hg hi hij seed hr hr' h1 h2).1
  obtain ⟨tr, htr⟩ := this
  exact ⟨tr, fun sk s rngs k hk hr hn => htr (sk, rngs) ⟨⟨s, hk⟩, hr⟩ k hn⟩

/-- Generating a Galois key reveals the key and nothing else. -/
theorem C78_galois_key (hb : b.OK) (h : build b st = Res.ok par.toBfvParameters) (h64 : par.moduli.length ≤ 64) {g : Prg} (hg : g.OK) {i j : Nat}
    (hi : i < par.moduli.length) (hij : j ≤ i) {x : Nat} (hx : x % 2 = 1) (seed : Seed) :
    ∃ tr : GaloisKey → List Event, ∀ (sk : SecretKey) (s : IntPoly par.degree) (rngs : Nat → Nat → Nat) (k : GaloisKey), sk.IsKey par s →
      (∀ i, IsStream (rngs i)) → GaloisKey.new b g sk x i j seed rngs = Res.ok k → (Release.newGalois b g sk x i j seed rngs).run = ⟨some (.ok k), tr k⟩ := by
  obtain ⟨_, hw, -⟩ := build_inv hb h
  have := reveals_output (ι := SecretKey × (Nat → Nat → Nat)) (run := fun y => (Release.newGalois b g y.1 x i j seed y.2).run)
    (value := fun y => (GaloisKey.new b g y.1 x i j seed y.2).run) (adm := fun x => (∃ s, x.1.IsKey par s) ∧ ∀ i, IsStream (x.2 i))
    (fun y => newGalois_agrees _ _ _ _ _ _ _ _) fun y y' k ⟨⟨s, hk⟩, hr⟩ ⟨⟨s', hk'⟩, hr'⟩ h1 h2 =>
      (newGalois_indist hw h64 hk hk' ⟨hk.par_eq.trans hk'.par_eq.symm, hk.length.trans hk'.length.symm⟩ hg hi hij hx seed hr hr' h1 h2).1
  obtain ⟨tr, htr⟩ := this
  exact ⟨tr, fun sk s rngs k hk hr hn => htr (sk, rngs) ⟨⟨s, hk⟩, hr⟩ k hn⟩

/-- A decryption with the example parameters shows the trace for its eight signs, and the generation of a relinearization key the trace for the key. -/
example : ∃ (par : Par) (sk : SecretKey) (ct : Ciphertext) (pt : Plaintext) (tr : List Bool → List Event) (k : RelinearizationKey) (tr' : RelinearizationKey → List Event),
    par.moduli = [97, 113, 193] ∧ (Release.tryDecrypt luckyBuild sk ct).run = ⟨some (.ok pt), tr (decryptionSigns sk ct)⟩ ∧ (decryptionSigns sk ct).length = 8 ∧
    (Release.newRelin luckyBuild exPrg sk 0 0 (List.replicate 32 3) (fun _ => exRng)).run = ⟨some (.ok k), tr' k⟩ := by
  obtain ⟨par, sk, s, pt, pt', m, m', ct, ct', v, v', h, hd, ht, hm, hrel, hk, hs, e2, e2', em, em', f1, f1', f2, f2', f3, f3', f4, f4', f5, f6, h0, hvar⟩ := exCipher
  have h64 : par.moduli.length ≤ 64 := by rw [hm]; decide
  obtain ⟨pt', hp, -⟩ := C37_decrypt luckyBuild_ok h hrel hk f2 f5
  obtain ⟨tr, htr⟩ := C78_decrypt luckyBuild_ok h (by rw [ht]; decide) ct
  obtain ⟨k, g1, -⟩ := (C41_new (i := 0) (j := 0) luckyBuild_ok h h64 hk exPrg_ok (List.replicate 32 3) (rngs := fun _ => exRng) (fun _ => exRng_ok)).1 (by rw [hm]; decide) (le_refl _) (by rw [hm]; decide)
  obtain ⟨tr', htr'⟩ := C78_relinearization_key luckyBuild_ok h h64 exPrg_ok (i := 0) (j := 0) (by rw [hm]; decide) (le_refl _) (List.replicate 32 3)
  exact ⟨par, sk, ct, pt', tr, k, tr', hm, htr sk ⟨hk.par_eq, hk.length⟩ _ hp, by rw [C78_decrypt_bits luckyBuild_ok h hk.par_eq hp, hd],
    htr' sk s _ k hk (fun _ => exRng_ok) g1⟩

end Fhe.Props
