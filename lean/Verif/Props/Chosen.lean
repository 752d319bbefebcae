import Verif.Spec.Chosen
import Verif.Spec.Robust
import Verif.Props.Mbfv
import Verif.Props.BfvPlain
import Verif.Props.BfvCipher
/-!
# Decrypting a ciphertext that somebody else has chosen
-/
namespace Fhe.Props
open Nega ParamsBuilder Ciphertext Poly

variable {b : Build} {st : ParamsBuilder} {par : Par}

theorem key_apply {sk : SecretKey} {s : IntPoly par.degree} (hk : sk.IsKey par s) (j : Fin par.degree) : s j = sk.coeffs.getD j 0 := congrFun hk.poly j

theorem coeffs_of_isKey {sk : SecretKey} {s : IntPoly par.degree} (hk : sk.IsKey par s) : sk.coeffs = List.ofFn fun j => s j := by
  refine List.ext_getElem (by rw [hk.length, List.length_ofFn]) fun i h1 h2 => ?_
  rw [List.getElem_ofFn, key_apply hk, List.getD_eq_getElem _ _ h1]

theorem Chosen.centered_val {Q n : Nat} (hn : Q = n) {x : Int} (hx : 2 * |x| < Q) : Chosen.centered Q (x : ZMod n).val = x := by
  subst hn
  have hQ : 0 < (Q : Int) := by have := abs_nonneg x; linarith
  have : NeZero Q := ⟨by omega⟩
  have hv : (((x : ZMod Q).val : Nat) : Int) = x % Q := ZMod.val_intCast x
  unfold Chosen.centered
  rcases le_or_gt 0 x with h0 | h0
  · rw [abs_of_nonneg h0] at hx
    rw [Int.emod_eq_of_lt h0 (by linarith)] at hv
    rw [if_pos (by omega), hv]
  · rw [abs_of_neg h0] at hx
    have h1 : x % Q = x + Q := by rw [← Int.add_emod_right, Int.emod_eq_of_lt (by linarith) (by linarith)]
    rw [if_neg (by omega), hv, h1]; ring

/-- Signed decoding depends on the message only. -/
theorem decodeI64_same (hb : b.OK) (h : build b st = Res.ok par.toBfvParameters) {pt pt' : Plaintext} {m : par.Msg} {i i' : Nat} (h1 : pt.Holds par i m) (h2 : pt'.Holds par i' m) {e e' : Option Encoding}
    {n1 n2 : Nat} (he : pt.resolveEncoding e = Res.ok ⟨.poly, n1⟩) (he' : pt'.resolveEncoding e' = Res.ok ⟨.poly, n2⟩) : pt.decodeI64 e = pt'.decodeI64 e' := by
  obtain ⟨n, hw, -⟩ := build_inv hb h
  obtain ⟨ζ, hζ⟩ := PlaintextVec.exists_root hw
  have ht := hw.t_pos
  have : NeZero par.plaintext.value := ⟨by omega⟩
  unfold Plaintext.decodeI64
  rw [h1.par_eq, h2.par_eq, Plaintext.decodeBig_eq hw hζ h1 he (by simp), Plaintext.decodeBig_eq hw hζ h2 he' (by simp)]
  rcases hw.plaintext with ⟨md, g1, g2, g3⟩ | ⟨g2, g3⟩
  · have h64 : ∀ x ∈ msgCoeffs m, x < 2 ^ 64 := fun x hx => by have := msgCoeffs_lt m x hx; omega
    rw [Plaintext.decodeU64_eq hw hζ h1 he (by simp) h64, Plaintext.decodeU64_eq hw hζ h2 he' (by simp) h64]
  · rw [g3]

/-- C99: there is a ciphertext, which anyone can make without any key, whose decryption is the secret key: whoever decrypts it and decodes the result as signed coefficients has the coefficients of the
key they decrypted with. -/
theorem C99_decrypt (hb : b.OK) (h : build b st = Res.ok par.toBfvParameters) (hrel : par.toBfvParameters.Reliable 0) {B : Nat} (hB : B < par.plaintext.value / 2)
    (hroom : 2 ^ 62 * (par.modulusAt 0 % par.plaintext.value * B) ≤ (2 ^ 61 - 1) * par.modulusAt 0) :
    ∃ (p0 p1 : Poly .ntt) (ct : Ciphertext), Ciphertext.new [p0, p1] par = Res.ok ct ∧ ct.Usable par ∧
      ∀ {sk : SecretKey} {s : IntPoly par.degree}, sk.IsKey par s → s.Bounded B → ∃ pt, sk.tryDecrypt b ct = Res.ok pt ∧ pt.decodeI64 (some ⟨.poly, 0⟩) = Res.ok sk.coeffs := by
  obtain ⟨n, hw, -⟩ := build_inv hb h
  have ht := hw.t_pos
  have : NeZero par.plaintext.value := ⟨by omega⟩
  have hlen : 0 < par.moduli.length := List.length_pos_iff.2 hw.ne_nil
  obtain ⟨l, ha⟩ := AtLevel.ofLt (par := par) hw hlen
  let D : Nat := par.modulusAt 0 / par.plaintext.value
  refine ⟨encI l.ctx .ntt false (0 : IntPoly par.degree), encI l.ctx .ntt false (C (D : Int) : IntPoly par.degree), _, new_two ha rfl rfl, ⟨rfl, hlen, le_rfl, fun p hp => ?_⟩, fun {sk s} hk hs => ?_⟩
  · rcases List.mem_cons.1 hp with rfl | hp
    · exact ⟨valid_enc ha.wf _, ha.contextAt⟩
    · rw [List.mem_singleton.1 hp]; exact ⟨valid_enc ha.wf _, ha.contextAt⟩
  · have hE : Encrypts par s { par, seed := none, c := [encI l.ctx .ntt false (0 : IntPoly par.degree), encI l.ctx .ntt false (C (D : Int) : IntPoly par.degree)], level := 0 } 0 (red par.plaintext.value s)
        (C (-((par.modulusAt 0 % par.plaintext.value : Nat) : Int)) * s) :=
      Encrypts.intro ha rfl rfl le_rfl (.cons ⟨_, rfl⟩ (.cons ⟨_, rfl⟩ .nil)) (M := s) rfl (by
        have hd : (par.plaintext.value : Int) * D = par.modulusAt 0 + -((par.modulusAt 0 % par.plaintext.value : Nat) : Int) := by
          have := Nat.div_add_mod (par.modulusAt 0) par.plaintext.value
          show (par.plaintext.value : Int) * ((par.modulusAt 0 / par.plaintext.value : Nat) : Int) = _
          have h2 : ((par.plaintext.value * (par.modulusAt 0 / par.plaintext.value) + par.modulusAt 0 % par.plaintext.value : Nat) : Int) = (par.modulusAt 0 : Int) := by exact_mod_cast this
          push_cast at h2 ⊢
          linarith
        rw [phase_two, _root_.zero_add, mul_comm s]
        apply Nega.ext; intro j
        rw [Nega.add_apply, C_mul_apply, C_mul_apply, C_mul_apply, C_mul_apply]
        linear_combination (s j : Int) * hd)
    have hb' := hs.C_mul (-((par.modulusAt 0 % par.plaintext.value : Nat) : Int))
    rw [Int.natAbs_neg, Int.natAbs_natCast] at hb'
    obtain ⟨pt, e1, e2, e3⟩ := C37_decrypt hb h hrel hk hE (small_of_bounded hb' hroom)
    refine ⟨pt, e1, ?_⟩
    obtain ⟨pt', m', f1, f2, henc, f3, f4⟩ := C35_signed hb h (encoding := ⟨.poly, 0⟩) hlen (by have := hrel.modulus; show _ ≤ par.modulusAt 0; omega) (by simp) (v := sk.coeffs) hk.length.le hk.word
    have hmm : m' = red par.plaintext.value s := by
      apply Nega.ext; intro j
      have := f3 rfl j
      rw [coeff_val] at this
      rw [this]
      show _ = ((s j : Int) : ZMod par.plaintext.value)
      rw [key_apply hk]
    subst hmm
    rw [decodeI64_same hb h e2 f2 (n1 := 0) (n2 := 0) (Plaintext.resolveEncoding_ok (Or.inr ⟨e3, rfl⟩)) (e' := none) (Plaintext.resolveEncoding_ok (Or.inl ⟨henc, Or.inl rfl⟩)), f4 (fun x hx => ?_)]
    · congr 1
      refine List.ext_getElem (by simp [padInts, hk.length]) fun i h1 h2 => ?_
      simp [padInts, List.getElem?_eq_getElem h2]
    · obtain ⟨i, hi, rfl⟩ := List.getElem_of_mem hx
      have := hs ⟨i, by rw [← hk.length]; exact hi⟩
      rw [key_apply hk, List.getD_eq_getElem _ _ hi, abs_le] at this
      have h2 := this
      constructor
      · have : par.plaintext.value / 2 ≤ par.plaintext.value - par.plaintext.value / 2 := by omega
        omega
      · omega

/-- C99, multiparty: there is a ciphertext such that the decryption share that a party makes for it gives its secret key away, whatever the error is.  The error of a share is that of a fresh encryption,
it is not large enough to hide anything. -/
theorem C99_share (hb : b.OK) (h : build b st = Res.ok par.toBfvParameters) {B : Nat} (hroom : 2 * ((4 * par.variance + 1) * B + 2 * par.variance) < par.modulusAt 0) :
    ∃ (p0 p1 : Poly .ntt) (ct : Ciphertext), Ciphertext.new [p0, p1] par = Res.ok ct ∧ ct.Usable par ∧
      ∀ {sk : SecretKey} {s : IntPoly par.degree} {rng : Nat → Nat}, sk.IsKey par s → s.Bounded B → IsStream rng →
        ∃ share, DecryptionShare.new sk ct rng = Res.ok share ∧ Chosen.keyOf par share = some sk.coeffs := by
  obtain ⟨n, hw, -⟩ := build_inv hb h
  have hlen : 0 < par.moduli.length := List.length_pos_iff.2 hw.ne_nil
  obtain ⟨l, ha⟩ := AtLevel.ofLt (par := par) hw hlen
  have := ha.wf.neZero
  let a : Int := 4 * par.variance + 1
  refine ⟨encI l.ctx .ntt false (0 : IntPoly par.degree), encI l.ctx .ntt false (C a : IntPoly par.degree), _, new_two ha rfl rfl, ⟨rfl, hlen, le_rfl, fun p hp => ?_⟩, fun {sk s rng} hk hs hr => ?_⟩
  · rcases List.mem_cons.1 hp with rfl | hp
    · exact ⟨valid_enc ha.wf _, ha.contextAt⟩
    · rw [List.mem_singleton.1 hp]; exact ⟨valid_enc ha.wf _, ha.contextAt⟩
  · have hzero : SecretKey.IsKey par { par := sk.par, coeffs := List.replicate sk.par.degree 0 } 0 := by
      rw [hk.par_eq]
      refine ⟨rfl, List.length_replicate, fun x hx => ?_, Nega.ext fun j => ?_⟩
      · obtain ⟨-, rfl⟩ := List.mem_replicate.1 hx; norm_num
      · show (0 : Int) = (List.replicate par.degree (0 : Int)).getD j 0
        rw [List.getD_replicate _ j.isLt]
    obtain ⟨e, he, h1⟩ := SecretKeySwitchShare.new_eq (ct := { par, seed := none, c := [encI l.ctx .ntt false (0 : IntPoly par.degree), encI l.ctx .ntt false (C a : IntPoly par.degree)], level := 0 })
      hw ha hk hzero rfl rfl hr
    refine ⟨⟨_⟩, by unfold DecryptionShare.new; simp only [h1, Res.ok_bind]; rfl, ?_⟩
    unfold Chosen.keyOf
    simp only []
    rw [nttToPowerBasis_encI ha.wf, Option.bind_eq_bind, Option.bind_some]
    unfold encI
    rw [Plaintext.toBigUint_enc ha.wf, Option.bind_eq_bind, Option.bind_some, coeffs_of_isKey hk]
    show some _ = _
    congr 1
    refine List.ext_getElem (by simp [ha.deg]) fun i g1 g2 => ?_
    have hi : i < par.degree := by simpa using g2
    rw [List.getElem_map, List.getElem_ofFn, List.getElem_ofFn]
    show (Chosen.centered (par.modulusAt 0) (((coeff ((s - 0) * C a + e : IntPoly par.degree) i : Int) : ZMod l.ctx.modulus)).val + 2 * par.variance) / (4 * par.variance + 1) = s ⟨i, hi⟩
    have hc : coeff ((s - 0) * C a + e : IntPoly par.degree) i = a * s ⟨i, hi⟩ + e ⟨i, hi⟩ := by
      refine (coeff_val _ (⟨i, hi⟩ : Fin par.degree)).trans ?_
      rw [sub_zero, mul_comm, Nega.add_apply, C_mul_apply]
    have hsb : |s ⟨i, hi⟩| ≤ B := hs ⟨i, hi⟩
    have heb : |e ⟨i, hi⟩| ≤ (2 * par.variance : Nat) := he ⟨i, hi⟩
    rw [hc, Chosen.centered_val (by rw [ha.mod]) ?_]
    · rw [abs_le] at heb
      push_cast at heb
      rw [show a * s ⟨i, hi⟩ + e ⟨i, hi⟩ + 2 * (par.variance : Int) = (e ⟨i, hi⟩ + 2 * par.variance) + a * s ⟨i, hi⟩ by ring, Int.add_mul_ediv_left _ _ (by positivity),
        Int.ediv_eq_zero_of_lt (by linarith) (by linarith), _root_.zero_add]
    · have h1 : |a * s ⟨i, hi⟩ + e ⟨i, hi⟩| ≤ a * B + (2 * par.variance : Nat) := (abs_add_le _ _).trans (add_le_add (by
        rw [abs_mul, abs_of_pos (show 0 < a by positivity)]; exact mul_le_mul_of_nonneg_left hsb (by positivity)) heb)
      have h2 : ((2 * ((4 * par.variance + 1) * B + 2 * par.variance) : Nat) : Int) < (par.modulusAt 0 : Int) := by exact_mod_cast hroom
      push_cast at h1 h2
      show 2 * |a * s ⟨i, hi⟩ + e ⟨i, hi⟩| < _
      have h3 : a * (B : Int) = (4 * par.variance + 1) * B := rfl
      linarith

/-- The hypotheses are met: with the keys of the example parameters, whose coefficients are at most 2, both ciphertexts give the key away. -/
example : ∃ (par : Par) (sk : SecretKey) (ct ct' : Ciphertext) (pt : Plaintext) (share : DecryptionShare), build luckyBuild exBuilder = Res.ok par.toBfvParameters ∧ sk.coeffs.length = 8 ∧
    sk.tryDecrypt luckyBuild ct = Res.ok pt ∧ pt.decodeI64 (some ⟨.poly, 0⟩) = Res.ok sk.coeffs ∧ DecryptionShare.new sk ct' exRng = Res.ok share ∧ Chosen.keyOf par share = some sk.coeffs := by
  obtain ⟨par, sk, s, pt, pt', m, m', ct, ct', v, v', h, hd, ht, hm, hrel, hk, hs, e2, e2', em, em', f1, f1', f2, f2', f3, f3', f4, f4', f5, f6, h0, hvar⟩ := exCipher
  obtain ⟨-, -, c1, -, -, g1⟩ := C99_decrypt luckyBuild_ok h hrel (B := 2) (by rw [ht]; decide) (by rw [h0, ht]; decide)
  obtain ⟨-, -, c2, -, -, g2⟩ := C99_share luckyBuild_ok h (B := 2) (by rw [h0, hvar]; decide)
  obtain ⟨pt, k1, k2⟩ := g1 hk hs
  obtain ⟨share, k3, k4⟩ := g2 hk hs exRng_ok
  exact ⟨par, sk, c1, c2, pt, share, h, hk.length.trans hd, k1, k2, k3, k4⟩

end Fhe.Props
