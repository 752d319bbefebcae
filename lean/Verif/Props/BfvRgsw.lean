import Verif.Props.BfvKeys
import Verif.Lemmas.BfvRgsw
/-!
# Property C45: RGSW ciphertexts and the external product
-/
namespace Fhe.Props
open Nega Poly ParamsBuilder Ciphertext

variable {b : Build} {par : Par} {st : ParamsBuilder} {s : IntPoly par.degree} {sk : SecretKey} {i e : Nat} {ct : Ciphertext} {m m' : par.Msg} {v : IntPoly par.degree}

/-- C45: encryption of a plaintext of level `i` gives an RGSW ciphertext of its message at that level, at every level, with errors of at most
`2 variance`. -/
theorem C45_encrypt (hb : b.OK) (h : build b st = Res.ok par.toBfvParameters) (hk : sk.IsKey par s) {g : Prg} (hg : g.OK) {pt : Plaintext} (hpt : pt.Holds par i m) (seed0 seed1 : Seed)
    {rngs0 rngs1 : Nat → Nat → Nat} (hr0 : ∀ i, IsStream (rngs0 i)) (hr1 : ∀ i, IsStream (rngs1 i)) :
    ∃ r : RgswCiphertext, sk.tryEncryptRgsw b g pt seed0 seed1 rngs0 rngs1 = Res.ok r ∧ r.Encrypts par s i m (2 * par.variance) ∧
      (i + 1 < par.moduli.length → r.ksk0.digitSum = (par.moduli.take (par.moduli.length - i)).sum ∧ r.ksk1.digitSum = (par.moduli.take (par.moduli.length - i)).sum) := by
  obtain ⟨n, hw, -⟩ := build_inv hb h
  obtain ⟨l, hl, hc⟩ := ParWF.contextAtLevel_iff.1 hpt.ctx
  obtain ⟨r, e1, e2, e3⟩ := SecretKey.tryEncryptRgsw_eq hw (AtLevel.ofGet hw hl) hk hg hpt seed0 seed1 hr0 hr1
  refine ⟨r, e1, e2, fun hi => ⟨KeySwitchingKey.IsFor.digitSum_eq hw e2.fst ?_, KeySwitchingKey.IsFor.digitSum_eq hw e2.snd ?_⟩⟩
  · exact (e3 (r.ksk0, seed0) (by simp)).2.2.2.2 hi
  · exact (e3 (r.ksk1, seed1) (by simp)).2.2.2.2 hi

/-- C45: a plaintext that does not belong to the parameters of the key is rejected, by the error of its validation. -/
theorem C45_encrypt_rejects (g : Prg) {pt : Plaintext} {err : FheError} (hv : pt.validateFor sk.par = Res.err err) (seed0 seed1 : Seed) (rngs0 rngs1 : Nat → Nat → Nat) :
    sk.tryEncryptRgsw b g pt seed0 seed1 rngs0 rngs1 = Res.err err := by
  unfold SecretKey.tryEncryptRgsw
  rw [hv, Res.err_bind]

/-- C45: the product of a ciphertext of two parts with an RGSW ciphertext of `m'` at the same level encrypts the product of the messages.  Its noise
is that of the ciphertext times `m'`, plus `t W`, where `W` is bounded by the errors of the RGSW ciphertext. -/
theorem C45_product (hb : b.OK) (h : build b st = Res.ok par.toBfvParameters) {r : RgswCiphertext} (hr : r.Encrypts par s i m' e) (h1 : ct.Encrypts par s i m v) (h2 : ct.c.length = 2) :
    ∃ (o : Ciphertext) (W : IntPoly par.degree), ct.mulRgsw r = some o ∧ o.Encrypts par s i (m * m') (v * IntPoly.ofMsg m' + C (par.plaintext.value : Int) * W) ∧ o.c.length = 2 ∧ o.seed = none ∧
      W.Bounded (par.degree * (r.ksk0.digitSum + r.ksk1.digitSum) * e) := by
  obtain ⟨n, hw, -⟩ := build_inv hb h
  exact mulRgsw_eq hw hr h1 h2

/-- C45: the noise of the product is bounded by `N t V + t N D e`, if that of the ciphertext is by `V`. -/
theorem C45_bound (hb : b.OK) (h : build b st = Res.ok par.toBfvParameters) {r : RgswCiphertext} (hr : r.Encrypts par s i m' e) (h1 : ct.Encrypts par s i m v) (h2 : ct.c.length = 2)
    {V : Nat} (hv : v.Bounded V) :
    ∃ (o : Ciphertext) (v' : IntPoly par.degree), ct.mulRgsw r = some o ∧ o.Encrypts par s i (m * m') v' ∧ o.c.length = 2 ∧
      v'.Bounded (par.degree * V * par.plaintext.value + par.plaintext.value * (par.degree * (r.ksk0.digitSum + r.ksk1.digitSum) * e)) := by
  obtain ⟨n, hw, -⟩ := build_inv hb h
  have : NeZero par.plaintext.value := ⟨by have := hw.t_pos; omega⟩
  obtain ⟨o, W, e1, e2, e3, -, e4⟩ := mulRgsw_eq hw hr h1 h2
  refine ⟨o, _, e1, e2, e3, (hv.mul (msgInt_bounded m')).add ?_⟩
  simpa using e4.C_mul (par.plaintext.value : Int)

/-- C45: on a ciphertext of valid polynomials of its level, the product panics exactly if the parameters or the levels differ or if there are
not two parts. -/
theorem C45_panics (hb : b.OK) (h : build b st = Res.ok par.toBfvParameters) {r : RgswCiphertext} (hr : r.Encrypts par s i m' e)
    (hc : ∀ p ∈ ct.c, p.Valid ∧ ct.par.contextAtLevel ct.level = Res.ok p.ctx) :
    ct.mulRgsw r = none ↔ ct.par.toBfvParameters ≠ par.toBfvParameters ∨ ct.level ≠ i ∨ ct.c.length ≠ 2 := by
  obtain ⟨n, hw, -⟩ := build_inv hb h
  obtain ⟨l, ha, -, -, hp, -⟩ := hr.fst.same hw
  constructor
  · intro hn
    by_contra hcon
    simp only [not_or, not_not] at hcon
    obtain ⟨g1, g2, g3⟩ := hcon
    -- the parameters are those of the key up to their address
    have hlv : ct.level < par.moduli.length := by rw [g2]; exact ha.lt
    obtain ⟨mm, vv, he⟩ := Ciphertext.exists_encrypts (ct := { ct with par := par }) hw s rfl hlv (by show 2 ≤ ct.c.length; omega)
      (fun p hp => by have := (hc p hp).2; unfold BfvParameters.contextAtLevel at this ⊢; rw [g1] at this; exact this) fun p hp => (hc p hp).1
    have he' : ({ ct with par := par } : Ciphertext).Encrypts par s i mm vv := by rw [← g2]; exact he
    obtain ⟨o, W, e1, -⟩ := mulRgsw_eq hw hr he' g3
    have key : ({ ct with par := par } : Ciphertext).mulRgsw r = none := by
      unfold mulRgsw at hn ⊢
      rw [hp, check_eq g1, check_eq (by rw [g2, hr.fst.level])] at hn
      rw [hp, check_eq rfl, check_eq (by show ct.level = _; rw [g2, hr.fst.level])]
      simp only [Option.bind_eq_bind, Option.bind_some] at hn ⊢
      revert hn
      match ct.c with
      | [x0, x1] => simp only [Option.bind_eq_none_iff]; intro hn a h1 b h2 c h3 d h4 e h5 f h6; have := hn a h1 b h2 c h3 d h4 e h5 f h6; simp at this
      | [] => simp
      | [_] => simp
      | _ :: _ :: _ :: _ => simp
    rw [key] at e1
    exact absurd e1 (by simp)
  · rintro (hne | hne | hne)
    · unfold mulRgsw
      rw [hp]
      simp [check, hne]
    · unfold mulRgsw
      rw [hr.fst.level]
      simp [check, hne]
    · unfold mulRgsw
      cases check (ct.par.toBfvParameters = r.ksk0.par.toBfvParameters) with
      | none => rfl
      | some _ =>
        cases check (ct.level = r.ksk0.ciphertextLevel) with
        | none => rfl
        | some _ =>
          simp only [Option.bind_eq_bind, Option.bind_some]
          match hcc : ct.c with
          | [x0, x1] => rw [hcc] at hne; simp at hne
          | [] => rfl
          | [_] => rfl
          | _ :: _ :: _ :: _ => rfl

/-- At the parameters of `exCipher`: an encryption of the first message times an RGSW encryption of the second decrypts to their product. -/
example : ∃ (par : Par) (sk : SecretKey) (m m' : par.Msg) (ct : Ciphertext) (pt' : Plaintext), msgCoeffs m = [1, 2, 16, 0, 0, 0, 0, 0] ∧ msgCoeffs m' = [5, 4, 3, 0, 0, 0, 0, 0] ∧ pt'.Holds par 0 m' ∧
    ∃ r o pt, sk.tryEncryptRgsw luckyBuild exPrg pt' (List.replicate 32 3) (List.replicate 32 4) (fun _ => exRng) (fun _ => exRng) = Res.ok r ∧ ct.mulRgsw r = some o ∧
      sk.tryDecrypt luckyBuild o = Res.ok pt ∧ pt.Holds par 0 (m * m') := by
  obtain ⟨par, sk, s, pt, pt', m, m', ct, ct', v, v', h, hd, ht, hm, hrel, hk, hs, e2, e2', em, em', f1, f1', f2, f2', f3, f3', f4, f4', f5, f6, h0, hvar⟩ := exCipher
  have hb := luckyBuild_ok
  refine ⟨par, sk, m, m', ct, pt', em, em', e2', ?_⟩
  obtain ⟨r, g1, g2, g3⟩ := C45_encrypt hb h hk exPrg_ok e2' (List.replicate 32 3) (List.replicate 32 4) (rngs0 := fun _ => exRng) (rngs1 := fun _ => exRng) (fun _ => exRng_ok) (fun _ => exRng_ok)
  obtain ⟨g4, g5⟩ := g3 (by rw [hm]; decide)
  obtain ⟨o, v'', k1, k2, k3, k4⟩ := C45_bound hb h g2 f2 f4 f3
  obtain ⟨pt, k6, k7, -⟩ := C37_decrypt hb h hrel hk k2 (small_of_bounded k4 (by
    rw [g4, g5, h0, ht, hd, hm, hvar]
    decide))
  exact ⟨r, o, pt, g1, k1, k6, k7⟩

end Fhe.Props
