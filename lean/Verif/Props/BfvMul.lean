import Verif.Props.BfvCipher
import Verif.Lemmas.BfvMul
import Verif.Spec.BfvMul
/-!
# Property C39: multiplication of ciphertexts
-/
namespace Fhe.Props
open Nega Poly ParamsBuilder Ciphertext

variable {b : Build} {par : Par} {st : ParamsBuilder} {s : IntPoly par.degree} {sk : SecretKey} {i : Nat} {ct ct' : Ciphertext} {m m' : par.Msg} {v v' : IntPoly par.degree}

/-- C39: the product of ciphertexts with `k` and `l` parts never panics, has `k + l - 1` parts, and encrypts the product of the
messages.  With `A` and `B` the parts of the operands, lifted to integers of absolute value at most about `Q/2`, `t phase(A) = Q M + v`
and `t phase(B) = Q M' + v'`, the new noise is `M v' + M' v + (v v' + t phase(E)) / Q`, where `E` are the rounding errors of the scaling by
`t/Q`, in units of `1/Q`. -/
theorem C39_mul (hb : b.OK) (h : build b st = Res.ok par.toBfvParameters) (hcount : par.moduli.length ≤ 31) (hsum : par.moduli.sum ≤ 2 ^ 65)
    (h1 : ct.Encrypts par s i m v) (h2 : ct'.Encrypts par s i m' v') (hlen : ct.c.length ≤ 2 ^ 12) :
    ∃ (r : Ciphertext) (v'' M M' : IntPoly par.degree) (A B E : List (IntPoly par.degree)), ct.mul ct' = some r ∧ r.Encrypts par s i (m * m') v'' ∧
      r.c.length = ct.c.length + ct'.c.length - 1 ∧ r.seed = none ∧
      (∀ j, ((M j : Int) : ZMod par.plaintext.value) = m j) ∧ (∀ j, ((M' j : Int) : ZMod par.plaintext.value) = m' j) ∧
      (A.length = ct.c.length ∧ ∀ x ∈ A, x.Bounded (par.modulusAt i * (2 ^ 55 + 1) / 2 ^ 56)) ∧ (B.length = ct'.c.length ∧ ∀ x ∈ B, x.Bounded (par.modulusAt i * (2 ^ 55 + 1) / 2 ^ 56)) ∧
      C (par.plaintext.value : Int) * phase s A = C (par.modulusAt i : Int) * M + v ∧ C (par.plaintext.value : Int) * phase s B = C (par.modulusAt i : Int) * M' + v' ∧
      (E.length = r.c.length ∧ ∀ e ∈ E, e.Bounded ((2 ^ 61 + 1) * par.modulusAt i / 2 ^ 62)) ∧
      C (par.modulusAt i : Int) * v'' = C (par.modulusAt i : Int) * (M * v' + M' * v) + v * v' + C (par.plaintext.value : Int) * phase s E := by
  obtain ⟨n, hw, -⟩ := build_inv hb h
  obtain ⟨r, v'', M, M', E, e1, e2, e3, e4, e5, e6, ⟨A, B, f1, f2, f3, f4, f5, f6⟩, e7, e8, e9⟩ := Ciphertext.mul_eq hw hcount hsum h1 h2 hlen
  refine ⟨r, v'', M, M', A, B, E, e1, e2, e3, e4, fun j => ?_, fun j => ?_, ⟨f1, fun x hx => (f3 x hx).bounded⟩, ⟨f2, fun x hx => (f4 x hx).bounded⟩, f5.symm, f6.symm,
    ⟨e7, fun e he j => ?_⟩, e9⟩
  · rw [← e5]; rfl
  · rw [← e6]; rfl
  · have := e8 e he j
    push_cast
    exact (Int.le_ediv_iff_mul_le (by norm_num)).2 (by rw [mul_comm]; exact this)

theorem mulNoise_bounded (hQ : 0 < par.modulusAt i) {v'' M M' : IntPoly par.degree} {A B E : List (IntPoly par.degree)} {parts parts' : Nat}
    (a : A.length = parts ∧ ∀ x ∈ A, x.Bounded (par.modulusAt i * (2 ^ 55 + 1) / 2 ^ 56)) (b : B.length = parts' ∧ ∀ x ∈ B, x.Bounded (par.modulusAt i * (2 ^ 55 + 1) / 2 ^ 56))
    (f1 : C (par.plaintext.value : Int) * phase s A = C (par.modulusAt i : Int) * M + v) (f2 : C (par.plaintext.value : Int) * phase s B = C (par.modulusAt i : Int) * M' + v')
    (g : E.length = parts + parts' - 1 ∧ ∀ e ∈ E, e.Bounded ((2 ^ 61 + 1) * par.modulusAt i / 2 ^ 62))
    (e9 : C (par.modulusAt i : Int) * v'' = C (par.modulusAt i : Int) * (M * v' + M' * v) + v * v' + C (par.plaintext.value : Int) * phase s E)
    {S V V' : Nat} (hs : s.Bounded S) (hv : v.Bounded V) (hv' : v'.Bounded V') : v''.Bounded (mulNoise par i S parts parts' V V') := by
  obtain ⟨a1, a2⟩ := a
  obtain ⟨b1, b2⟩ := b
  obtain ⟨g1, g2⟩ := g
  have key : ∀ {M v : IntPoly par.degree} {A : List (IntPoly par.degree)} {V : Nat}, v.Bounded V → (∀ x ∈ A, x.Bounded (par.modulusAt i * (2 ^ 55 + 1) / 2 ^ 56)) →
      C (par.plaintext.value : Int) * phase s A = C (par.modulusAt i : Int) * M + v → M.Bounded (mulHeight par i S A.length V) := by
    intro M v A V hv hA he j
    have hb := ((phase_bounded hs hA).C_mul (par.plaintext.value : Int)).sub hv
    rw [he, add_sub_cancel_right, Int.natAbs_natCast] at hb
    have := hb j
    rw [C_mul_apply, abs_mul, Nat.abs_cast] at this
    unfold mulHeight
    push_cast at this ⊢
    exact (Int.le_ediv_iff_mul_le (by exact_mod_cast hQ)).2 (by rw [mul_comm]; exact this)
  have hM := key hv a2 f1
  have hM' := key hv' b2 f2
  rw [a1] at hM
  rw [b1] at hM'
  have hp := (phase_bounded hs g2).C_mul (par.plaintext.value : Int)
  rw [g1, Int.natAbs_natCast] at hp
  obtain ⟨R, hR⟩ : ∃ R : IntPoly par.degree, v'' = M * v' + M' * v + R := ⟨v'' - (M * v' + M' * v), by ring⟩
  have hR2 : C (par.modulusAt i : Int) * R = v * v' + C (par.plaintext.value : Int) * phase s E := by rw [hR] at e9; linear_combination e9
  have hRb : R.Bounded ((par.degree * V * V' + par.plaintext.value * ((2 ^ 61 + 1) * par.modulusAt i / 2 ^ 62 * geom (par.degree * S) (parts + parts' - 1))) / par.modulusAt i) := by
    intro j
    have := ((hv.mul hv').add hp) j
    rw [← hR2, C_mul_apply, abs_mul, Nat.abs_cast] at this
    push_cast at this ⊢
    exact (Int.le_ediv_iff_mul_le (by exact_mod_cast hQ)).2 (by rw [mul_comm]; exact this)
  rw [hR]
  refine (((hM.mul hv').add (hM'.mul hv)).add hRb).mono ?_
  unfold mulNoise; apply le_of_eq; ring

/-- C39: the noise of a product, in terms of bounds on the secret and on the noises of the operands. -/
theorem C39_bound (hb : b.OK) (h : build b st = Res.ok par.toBfvParameters) (hcount : par.moduli.length ≤ 31) (hsum : par.moduli.sum ≤ 2 ^ 65)
    (h1 : ct.Encrypts par s i m v) (h2 : ct'.Encrypts par s i m' v') (hlen : ct.c.length ≤ 2 ^ 12) {S V V' : Nat} (hs : s.Bounded S) (hv : v.Bounded V) (hv' : v'.Bounded V') :
    ∃ (r : Ciphertext) (v'' : IntPoly par.degree), ct.mul ct' = some r ∧ r.Encrypts par s i (m * m') v'' ∧ r.c.length = ct.c.length + ct'.c.length - 1 ∧
      v''.Bounded (mulNoise par i S ct.c.length ct'.c.length V V') := by
  have hQ : 0 < par.modulusAt i := by
    obtain ⟨n, hw, -⟩ := build_inv hb h
    obtain ⟨l, -, -, ha, -⟩ := h1.elim hw
    exact ha.pos
  obtain ⟨r, v'', M, M', A, B, E, e1, e2, e3, -, -, -, a, b, f1, f2, g, e9⟩ := C39_mul hb h hcount hsum h1 h2 hlen
  rw [e3] at g
  exact ⟨r, v'', e1, e2, e3, mulNoise_bounded hQ a b f1 f2 g e9 hs hv hv'⟩

/-- C39: the empty ciphertext absorbs what is multiplied to its right, but multiplied to the right of a ciphertext it gives a ciphertext
with one part fewer: a fresh ciphertext times the empty one is not a valid ciphertext. -/
theorem C39_zero (hb : b.OK) (h : build b st = Res.ok par.toBfvParameters) (hcount : par.moduli.length ≤ 31) (hsum : par.moduli.sum ≤ 2 ^ 65)
    (h1 : ct.Encrypts par s 0 m v) : (Ciphertext.zero par).mul ct = some (Ciphertext.zero par) ∧
    ∃ r, ct.mul (Ciphertext.zero par) = some r ∧ r.c.length = ct.c.length - 1 ∧ (ct.c.length = 2 → r.validateFor par ≠ Res.ok ()) := by
  refine ⟨by simp [Ciphertext.mul, Ciphertext.zero], ?_⟩
  obtain ⟨n, hw, -⟩ := build_inv hb h
  obtain ⟨r, e1, e2, e3⟩ := Ciphertext.mul_zero hw hcount hsum h1
  refine ⟨r, e1, e2, fun h2 h3 => ?_⟩
  have := ((C48_validate hb h r).2.1 h3).2.2.1
  omega

/-- C39: ciphertexts of different levels, or of different parameter objects, are not multiplied: the operation panics. -/
theorem C39_mismatch (hne : ct.c ≠ []) (hbad : ct.par.ptrEq ct'.par = false ∨ ct.level ≠ ct'.level) (hbeq : ct'.beq ct = false) : ct.mul ct' = none := by
  unfold Ciphertext.mul
  rw [if_neg hne, hbeq]
  rcases hbad with hb | hb <;> simp [check, hb]

/-- The two encryptions of `exCipher` have a product of three parts that decrypts to the product of the messages, and so has the square
of the first. -/
example : ∃ (par : Par) (sk : SecretKey) (m m' : par.Msg) (ct ct' : Ciphertext), msgCoeffs m = [1, 2, 16, 0, 0, 0, 0, 0] ∧ msgCoeffs m' = [5, 4, 3, 0, 0, 0, 0, 0] ∧
    (∃ r pt, ct.mul ct' = some r ∧ r.c.length = 3 ∧ sk.tryDecrypt luckyBuild r = Res.ok pt ∧ pt.Holds par 0 (m * m')) ∧
    (∃ r pt, ct.mul ct = some r ∧ r.c.length = 3 ∧ sk.tryDecrypt luckyBuild r = Res.ok pt ∧ pt.Holds par 0 (m * m)) ∧
    ∃ r, ct.mul (Ciphertext.zero par) = some r ∧ r.validateFor par ≠ Res.ok () := by
  obtain ⟨par, sk, s, pt, pt', m, m', ct, ct', v, v', h, hd, ht, hm, hrel, hk, hs, e2, e2', em, em', f1, f1', f2, f2', f3, f3', f4, f4', f5, f6, h0, hvar⟩ := exCipher
  have hb := luckyBuild_ok
  have hnum : (2 : Nat) ^ 62 * mulNoise par 0 2 2 2 51 51 ≤ (2 ^ 61 - 1) * par.modulusAt 0 := by
    unfold mulNoise mulHeight
    rw [h0, ht, hd]
    decide
  refine ⟨par, sk, m, m', ct, ct', em, em', ?_, ?_, ?_⟩
  · obtain ⟨r, v'', g1, g2, g3, g4⟩ := C39_bound hb h hrel.count hrel.sum f2 f2' (by rw [f4]; norm_num) hs f3 f3'
    rw [f4, f4'] at g3 g4
    obtain ⟨pt, g5, g6, -⟩ := C37_decrypt hb h hrel hk g2 (small_of_bounded g4 hnum)
    exact ⟨r, pt, g1, g3, g5, g6⟩
  · obtain ⟨r, v'', g1, g2, g3, g4⟩ := C39_bound hb h hrel.count hrel.sum f2 f2 (by rw [f4]; norm_num) hs f3 f3
    rw [f4] at g3 g4
    obtain ⟨pt, g5, g6, -⟩ := C37_decrypt hb h hrel hk g2 (small_of_bounded g4 hnum)
    exact ⟨r, pt, g1, g3, g5, g6⟩
  · obtain ⟨-, r, g1, -, g2⟩ := C39_zero hb h hrel.count hrel.sum f2
    exact ⟨r, g1, g2 f4⟩

end Fhe.Props
