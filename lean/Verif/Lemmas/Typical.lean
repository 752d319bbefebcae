import Verif.Lemmas.Drawn
import Verif.Lemmas.MulLift
import Verif.Lemmas.Examples
/-!
# The noise of a polynomial of an encryption when the samples are typical
-/
namespace Fhe.Props
open Fhe Nega Poly Ciphertext ParamsBuilder Finset

/-! ## Counting -/

/-- If for all values of the other coordinates at most a fraction `c` of the values of coordinate `i` has a property, then at most this fraction of all points has it. -/
theorem count_coordinate {ι Ω : Type*} [Fintype ι] [DecidableEq ι] [Fintype Ω] [DecidableEq Ω] (i : ι) (p : (ι → Ω) → Prop) [DecidablePred p] {c : ℝ}
    (h : ∀ w : ι → Ω, ((univ.filter fun x : Ω => p (Function.update w i x)).card : ℝ) ≤ c * Fintype.card Ω) :
    ((univ.filter p).card : ℝ) ≤ c * Fintype.card (ι → Ω) := by
  rcases isEmpty_or_nonempty Ω with hE | hE
  · have : IsEmpty (ι → Ω) := ⟨fun f => hE.elim (f i)⟩
    simp [filter_eq_empty_iff.2 fun f => (this.elim f)]
  have h1 : (univ.filter fun q : (ι → Ω) × Ω => p (Function.update q.1 i q.2)).card = (univ.filter p).card * Fintype.card Ω := by
    rw [← card_univ (α := Ω), ← card_product]
    refine card_bij' (fun q _ => (Function.update q.1 i q.2, q.1 i)) (fun q _ => (Function.update q.1 i q.2, q.1 i)) ?_ ?_ ?_ ?_
    · rintro ⟨w, x⟩ hq
      simpa using hq
    · rintro ⟨w, x⟩ hq
      simpa using hq
    · rintro ⟨w, x⟩ hq
      simp
    · rintro ⟨w, x⟩ hq
      simp
  have h2 : (univ.filter fun q : (ι → Ω) × Ω => p (Function.update q.1 i q.2)).card = ∑ w : ι → Ω, (univ.filter fun x : Ω => p (Function.update w i x)).card := by
    simp only [card_filter]
    rw [Fintype.sum_prod_type]
  have h3 : (((univ.filter fun q : (ι → Ω) × Ω => p (Function.update q.1 i q.2)).card : Nat) : ℝ) ≤ Fintype.card (ι → Ω) * (c * Fintype.card Ω) := by
    rw [h2, Nat.cast_sum, ← card_univ (α := ι → Ω), ← nsmul_eq_mul, ← Finset.sum_const]
    exact sum_le_sum fun w _ => h w
  rw [h1, Nat.cast_mul] at h3
  have hpos : (0 : ℝ) < Fintype.card Ω := by exact_mod_cast Fintype.card_pos
  exact le_of_mul_le_mul_right (by linarith) hpos

/-! ## The polynomial -/

variable {b : Build} {par : Par} {st : ParamsBuilder} 

/-- If `Q w` is bounded, so is `w`. -/
theorem bounded_of_mul {N Q B W : Nat} {w : IntPoly N} (hQ : 0 < Q) (h : (C (Q : Int) * w : IntPoly N).Bounded B) (hB : B ≤ Q * W) : w.Bounded W := fun j => by
  have h1 := h j
  rw [C_mul_apply, abs_mul, Int.abs_natCast] at h1
  have h2 : (B : Int) ≤ Q * W := by exact_mod_cast hB
  exact le_of_mul_le_mul_left (h1.trans h2) (by exact_mod_cast hQ)

/-- The noise of a relinearized square times a plaintext `P`, for bounds `PV` on `P` times the noise and `Ta` on the lifted second part times the secret. -/
theorem square_typical (hb : b.OK) (h : build b st = Res.ok par.toBfvParameters) (hcount : par.moduli.length ≤ 31) (hsum : par.moduli.sum ≤ 2 ^ 65) :
    ∃ G : IntPoly par.degree → IntPoly par.degree, (∀ X, AlmostCentered (par.modulusAt 0) (G X)) ∧
      ∀ {n : Nat} {s : IntPoly par.degree} {rk : RelinearizationKey} {l : ContextLevel} {ct : Ciphertext} {m m' : par.Msg} {v f0 f1 : IntPoly par.degree} {V PV Ta Qc EB HM W : Nat} {pt : Plaintext},
        AtLevel b n par 0 l → ParWF b n par.toBfvParameters → s.Bounded (2 * par.variance) → rk.IsFor par s 0 0 (2 * par.variance) → rk.ksk.digitSum = par.moduli.sum →
        ct.par = par → ct.level = 0 → Parts l.ctx ct.c [f0, f1] → C (par.plaintext.value : Int) * Fhe.phase s [f0, f1] = C (par.modulusAt 0 : Int) * msgInt m + v →
        v.Bounded V → pt.Holds par 0 m' → (msgInt m' * v).Bounded PV → (G f1 * s).Bounded Ta →
        par.modulusAt 0 * (2 ^ 55 + 1) ≤ 2 ^ 56 * Qc → (2 ^ 61 + 1) * par.modulusAt 0 ≤ 2 ^ 62 * EB → par.plaintext.value * (Qc + Ta) + V ≤ par.modulusAt 0 * HM →
        par.modulusAt 0 * (2 * (par.degree * HM * PV)) + par.degree * V * PV + par.plaintext.value * (par.degree * (EB * geom (par.degree * (2 * par.variance)) 3) * par.plaintext.value) ≤ par.modulusAt 0 * W →
        ∃ p q r w, ct.mul ct = some p ∧ rk.relinearizes p = Res.ok q ∧ q.mulPlain pt = some r ∧ r.Encrypts par s 0 (m * m * m') w ∧ r.c.length = 2 ∧
          w.Bounded (W + par.degree * switchNoise par * par.plaintext.value) := by
  obtain ⟨n', hw', -⟩ := build_inv hb h
  obtain ⟨l', ha'⟩ := AtLevel.ofLt (par := par) hw' (i := 0) (List.length_pos_of_ne_nil hw'.ne_nil)
  obtain ⟨G, hG, hmul⟩ := mul_lift hw' hcount hsum ha'
  refine ⟨G, hG, fun {n s rk l ct m m' v f0 f1 V PV Ta Qc EB HM W pt} ha hw hs hk hd hp hl hparts hph hv hpt hPV hTa hQc hEB hHM hW => ?_⟩
  obtain rfl : l = l' := by have := ha.get; have := ha'.get; simp_all
  have ht0 : NeZero par.plaintext.value := ⟨by have := hw.t_pos; omega⟩
  have hlen : ct.c.length = 2 := hparts.length_eq
  obtain ⟨p, v'', X, X', E, e1, e2, e3, e4, e5, e6, e7, e8⟩ := hmul hp hp hl hl hlen.ge hlen.ge (by rw [hlen]; norm_num) hparts hparts (red_msgInt m) (red_msgInt m) hph hph
  rw [hlen] at e3
  obtain ⟨q, K, g1, g2, g3, g4⟩ := C41_relinearize hb h hk e2 e3
  obtain ⟨r, P, i1, i2, i3, i4, -⟩ := C38_mul_plain hb h g2 hpt
  obtain rfl : P = msgInt m' := Nega.ext fun j => i2 j
  have hQ0 := ha.pos
  have hPb : (msgInt m').Bounded par.plaintext.value := fun j => by
    rw [i2 j, abs_of_nonneg (Int.natCast_nonneg _)]
    exact_mod_cast (ZMod.val_lt _).le
  have hGb : ∀ Y, (G Y).Bounded Qc := fun Y j => by
    have := hG Y j
    have : (par.modulusAt 0 : Int) * (2 ^ 55 + 1) ≤ 2 ^ 56 * Qc := by exact_mod_cast hQc
    norm_num at *
    linarith
  have hX : ∀ Y : IntPoly par.degree, C (par.modulusAt 0 : Int) * Y + v = C (par.plaintext.value : Int) * Fhe.phase s ([f0, f1].map G) → Y.Bounded HM := fun Y hY => by
    have h1 : C (par.modulusAt 0 : Int) * Y = C (par.plaintext.value : Int) * (G f0 + G f1 * s) - v := by
      rw [List.map_cons, List.map_cons, List.map_nil, phase_two] at hY
      linear_combination hY
    refine bounded_of_mul hQ0 ?_ hHM
    rw [h1]
    have h2 := ((hGb f0).add hTa).C_mul (par.plaintext.value : Int)
    rw [Int.natAbs_natCast] at h2
    exact h2.sub hv
  have hEb : (Fhe.phase s E).Bounded (EB * geom (par.degree * (2 * par.variance)) 3) := by
    have := phase_bounded hs (D := E) (B := EB) fun e he j => by
      have h1 := e7 e he j
      have h2 : ((2 ^ 61 + 1) * par.modulusAt 0 : Int) ≤ 2 ^ 62 * EB := by exact_mod_cast hEB
      norm_num at *
      linarith
    rwa [e6, e3] at this
  have h1 : (v'' * msgInt m').Bounded W := by
    refine bounded_of_mul hQ0 (B := _) ?_ hW
    have h2 : C (par.modulusAt 0 : Int) * (v'' * msgInt m') = C (par.modulusAt 0 : Int) * (X * (msgInt m' * v) + X' * (msgInt m' * v)) + v * (msgInt m' * v) + C (par.plaintext.value : Int) * (Fhe.phase s E * msgInt m') := by
      linear_combination msgInt m' * e8
    rw [h2]
    have a1 := (((hX X e4).mul hPV).add ((hX X' e5).mul hPV)).C_mul (par.modulusAt 0 : Int)
    have a2 := (hEb.mul hPb).C_mul (par.plaintext.value : Int)
    rw [Int.natAbs_natCast] at a1 a2
    exact ((a1.add (hv.mul hPV)).add a2).mono (le_of_eq (by ring))
  refine ⟨p, q, r, _, e1, g1, i1, i3, i4.trans g3, ?_⟩
  have g5 := (g4 _ hs).C_mul (par.plaintext.value : Int)
  rw [Int.natAbs_natCast] at g5
  have g6 : par.plaintext.value * rk.ksk.errorBound par (2 * par.variance) (2 * par.variance) ≤ switchNoise par := by
    refine Nat.mul_le_mul_left _ ?_
    unfold KeySwitchingKey.errorBound KeySwitchingKey.ratio
    rw [hd, hk.level, hk.keyLevel, Nat.sub_self, Nat.zero_mul, Nat.zero_mul, Nat.add_zero, Nat.div_self hQ0, Nat.mul_one, Nat.mul_div_cancel_left _ (by norm_num)]
  rw [add_mul]
  exact h1.add ((g5.mono g6).mul hPb)

/-- The SIMD polynomial of an encryption whose samples are typical. -/
theorem polynomial_typical (hb : b.OK) (h : build b st = Res.ok par.toBfvParameters) (hr : par.toBfvParameters.Reliable 0) (hop : par.nttOperator ≠ none) (h3 : 3 < par.plaintext.value)
    {xs : List Nat} (hN : xs.length ≤ par.degree) (hx : ∀ x ∈ xs, x < par.plaintext.value) :
    ∃ (G : IntPoly par.degree → IntPoly par.degree) (P : IntPoly par.degree), (∀ X, AlmostCentered (par.modulusAt 0) (G X)) ∧ P.Bounded par.plaintext.value ∧
      ∀ {n : Nat} {s : IntPoly par.degree} {sk : SecretKey} {pk : PublicKey} {ek : EvaluationKey} {rk : RelinearizationKey} {l : ContextLevel} {e A : IntPoly par.degree} {seed : Option Seed} {r : EncryptRandom}
        {Tu Ta Qc EB HM W V PV : Nat}, AtLevel b n par 0 l → ParWF b n par.toBfvParameters → ExampleKeys par s sk pk ek rk →
        pk = ⟨par, { par, seed, c := [encI l.ctx .ntt false (e - A * s), encI l.ctx .ntt false A], level := 0 }⟩ → EncryptRandom.OK r → e.Bounded (2 * par.variance) →
        (P * e * drawn par.degree par.variance r.u).Bounded Tu → (P * s * drawn par.degree par.variance r.e2).Bounded Tu →
        (G (drawn par.degree par.variance r.u * A + drawn par.degree par.variance r.e2) * s).Bounded Ta →
        V = freshNoise par → PV = par.plaintext.value * (Tu + par.degree * par.plaintext.value * (2 * par.variance) + Tu) + par.degree * par.plaintext.value * par.plaintext.value →
        par.modulusAt 0 * (2 ^ 55 + 1) ≤ 2 ^ 56 * Qc → (2 ^ 61 + 1) * par.modulusAt 0 ≤ 2 ^ 62 * EB → par.plaintext.value * (Qc + Ta) + V ≤ par.modulusAt 0 * HM →
        par.modulusAt 0 * (2 * (par.degree * HM * PV)) + par.degree * V * PV + par.plaintext.value * (par.degree * (EB * geom (par.degree * (2 * par.variance)) 3) * par.plaintext.value) ≤ par.modulusAt 0 * W →
        Room par (W + par.degree * switchNoise par * par.plaintext.value + par.degree * V * par.plaintext.value + par.plaintext.value) →
        ∃ ct, encodeEncrypt pk par xs .simd r = Res.ok ct ∧ BfvOps.polynomialSimd b ct xs.length rk par sk = Res.ok (xs.map fun x => (3 * x ^ 2 + 2 * x + 1) % par.plaintext.value) := by
  obtain ⟨n', hwf, -⟩ := build_inv hb h
  have ht0 : NeZero par.plaintext.value := ⟨by have := hwf.t_pos; omega⟩
  have hQ : par.plaintext.value ≤ par.modulusAt 0 := by have := hr.modulus; omega
  obtain ⟨ζ, z1, z2, z3, z4, z5⟩ := slot_tools hb h hop hQ
  obtain ⟨m, pt, a1, a2, a3⟩ := z1 xs hN hx
  obtain ⟨n3, p3, l3, k3, k3'⟩ := z1 (List.replicate xs.length 3) (by simpa using hN) (fun x hx => by rw [List.eq_of_mem_replicate hx]; omega)
  obtain ⟨n2, p2, l2, k2, k2'⟩ := z1 (List.replicate xs.length 2) (by simpa using hN) (fun x hx => by rw [List.eq_of_mem_replicate hx]; omega)
  obtain ⟨n1, p1, l1, k1, k1'⟩ := z1 (List.replicate xs.length 1) (by simpa using hN) (fun x hx => by rw [List.eq_of_mem_replicate hx]; omega)
  obtain ⟨G, hG, hsq⟩ := square_typical hb h hr.count hr.sum
  have hPb : (msgInt n3).Bounded par.plaintext.value := fun j => by
    show |((n3 j).val : Int)| ≤ _
    rw [abs_of_nonneg (Int.natCast_nonneg _)]
    exact_mod_cast (ZMod.val_lt _).le
  refine ⟨G, msgInt n3, hG, hPb, fun {n s sk pk ek rk l e A seed r Tu Ta Qc EB HM W V PV} ha hw hk hpk hR he hb1 hb2 hb3 hV hPV hQc hEB hHM hW hroom => ?_⟩
  obtain ⟨hu, -⟩ := drawn_encI hw.variance.1 hw.variance.2 hR.1 par.degree
  obtain ⟨he1, -⟩ := drawn_encI hw.variance.1 hw.variance.2 hR.2.1 par.degree
  obtain ⟨he2, -⟩ := drawn_encI hw.variance.1 hw.variance.2 hR.2.2 par.degree
  have f1 := PublicKey.tryEncrypt_drawn (vt := false) (vt' := false) (seed := seed) (F := e - A * s) (A := A) hw ha hQ a3 hR.1 hR.2.1 hR.2.2
  rw [← hpk] at f1
  generalize drawn par.degree par.variance r.u = u at *
  generalize drawn par.degree par.variance r.e1 = e1 at *
  generalize drawn par.degree par.variance r.e2 = e2 at *
  have hph := phase_drawn (Q := par.modulusAt 0) (s := s) (u := u) (e := e) (e1 := e1) (e2 := e2) (A := A) m
  obtain ⟨v, hv'⟩ : ∃ v : IntPoly par.degree, C (par.plaintext.value : Int) * (u * e + e1 + s * e2) - scaleRest (par.modulusAt 0) m = v := ⟨_, rfl⟩
  rw [hv'] at hph
  have hRest := scaleRest_bounded (par.modulusAt 0) (Nat.pos_of_ne_zero ht0.ne) m
  have hvb : v.Bounded V := by
    rw [← hv', hV]
    have := (((hu.mul he).add he1).add (hk.small.mul he2)).C_mul (par.plaintext.value : Int)
    rw [Int.natAbs_natCast] at this
    exact (this.sub hRest).mono (le_of_eq (by unfold freshNoise; ring))
  have hPv : (msgInt n3 * v).Bounded PV := by
    have e0 : msgInt n3 * v = C (par.plaintext.value : Int) * (msgInt n3 * e * u + msgInt n3 * e1 + msgInt n3 * s * e2) - msgInt n3 * scaleRest (par.modulusAt 0) m := by
      rw [← hv']; ring
    rw [e0, hPV]
    have := ((hb1.add (hPb.mul he1)).add hb2).C_mul (par.plaintext.value : Int)
    rw [Int.natAbs_natCast] at this
    exact this.sub (hPb.mul hRest)
  generalize hct : ({ par, seed := none, c := [encI l.ctx .ntt true (u * (e - A * s) + e1 + scaleMsg (par.modulusAt 0) m), encI l.ctx .ntt true (u * A + e2)], level := 0 } : Ciphertext) = ct at f1
  have hparts : Parts l.ctx ct.c [u * (e - A * s) + e1 + scaleMsg (par.modulusAt 0) m, u * A + e2] := by
    rw [← hct]
    exact .cons ⟨true, rfl⟩ (.cons ⟨true, rfl⟩ .nil)
  have hcp : ct.par = par := by rw [← hct]
  have hcl : ct.level = 0 := by rw [← hct]
  have hlen : ct.c.length = 2 := hparts.length_eq
  have f2 : ct.Encrypts par s 0 m v := Encrypts.intro ha hcp hcl hlen.ge hparts (red_msgInt m) hph
  obtain ⟨p, q, c3, w3, m0, m0', m1, m2, m3, m4⟩ := hsq ha hw hk.small hk.relinearization hk.digits hcp hcl hparts hph hvb k3' hPv hb3 hQc hEB hHM hW
  obtain ⟨c2, w2, m1', m2', m3', m4'⟩ := mul_any hb h f2 hlen hvb k2'
  obtain ⟨c, s1, s2, s3, -⟩ := C38_add hb h m2 m2' (by rw [m3, m3'])
  obtain ⟨wp, hwp, ⟨d, t1, t2, t3, -⟩, -⟩ := C38_plain hb h hQ s2 k1'
  have hpol : BfvOps.polynomial ct xs.length .simd rk par = Res.ok d := by
    unfold BfvOps.polynomial
    rw [m0, Res.lift_some, Res.ok_bind, m0', Res.ok_bind, k3, Res.ok_bind, k2, Res.ok_bind, k1, Res.ok_bind, m1, Res.lift_some, Res.ok_bind, m1', Res.lift_some, Res.ok_bind, s1, Res.lift_some, Res.ok_bind, t1,
      Res.lift_some]
  have hwb : wp.Bounded par.plaintext.value := fun j => by
    rw [hwp j, abs_of_nonneg (Int.natCast_nonneg _)]
    exact_mod_cast (Nat.mod_lt _ (by omega)).le
  obtain ⟨pd, d1, d2, d3⟩ := decrypt_room hb h hr hk.secret t2 ((m4.add m4').sub hwb) hroom
  refine ⟨ct, by unfold encodeEncrypt; rw [a2, Res.ok_bind, f1], ?_⟩
  unfold BfvOps.polynomialSimd BfvOps.decryptDecode
  rw [hpol, Res.ok_bind, d1, Res.ok_bind, z2 pd 0 _ d2 d3, Res.ok_bind]
  unfold Pir.slice
  rw [check_eq ⟨Nat.zero_le _, by simpa using hN⟩]
  change Res.ok _ = _
  congr 1
  refine List.ext_getElem (by simpa using hN) fun i h1 h2 => ?_
  have hi : i < xs.length := by simpa using h2
  simp only [List.drop_zero, Nat.sub_zero, List.getElem_take, List.getElem_ofFn, List.getElem_map]
  rw [z3, z3, z4, z4, z4, a1 i (by omega), l3 i (by omega), l2 i (by omega), l1 i (by omega), ← ZMod.val_natCast]
  congr 1
  have e : ∀ a : Nat, (List.replicate xs.length a).getD i 0 = a := fun a => by rw [List.getD_eq_getElem _ _ (by simpa using hi), List.getElem_replicate]
  rw [e, e, e, List.getD_eq_getElem _ _ hi]
  push_cast; ring

/-! ## How many samples are typical -/

/-- Of all words for the secret, the error of the public key, and two samples of an encryption, all but a small fraction give small products. -/
theorem typical_count_aux {N : Nat} {Ω : Type} [Fintype Ω] [DecidableEq Ω] {f : Ω → IntPoly N} {G : IntPoly N → IntPoly N} {P A : IntPoly N} {t Qc T1 Tu Ta : Nat} {c : ℝ} (hc : 0 ≤ c)
    (hG : ∀ X, (G X).Bounded Qc) (hP : P.Bounded t)
    (b1 : ∀ {F : IntPoly N}, F.Bounded t → ∀ q : Ω → Prop, ∀ [DecidablePred q], (∀ x, q x → ¬ (F * f x).Bounded T1) → ((univ.filter q).card : ℝ) ≤ c * Fintype.card Ω)
    (b2 : ∀ {F : IntPoly N}, F.Bounded T1 → ∀ q : Ω → Prop, ∀ [DecidablePred q], (∀ x, q x → ¬ (F * f x).Bounded Tu) → ((univ.filter q).card : ℝ) ≤ c * Fintype.card Ω)
    (b3 : ∀ {F : IntPoly N}, F.Bounded Qc → ∀ q : Ω → Prop, ∀ [DecidablePred q], (∀ x, q x → ¬ (F * f x).Bounded Ta) → ((univ.filter q).card : ℝ) ≤ c * Fintype.card Ω)
    {p : (Fin 4 → Ω) → Prop} [DecidablePred p]
    (hp : ∀ w, (P * f (w 1) * f (w 2)).Bounded Tu → (P * f (w 0) * f (w 3)).Bounded Tu → (G (f (w 2) * A + f (w 3)) * f (w 0)).Bounded Ta → ¬ p w) :
    ((univ.filter p).card : ℝ) ≤ 5 * c * Fintype.card (Fin 4 → Ω) := by
  classical
  have zero : (0 : ℝ) ≤ c * Fintype.card Ω := by positivity
  have u10 : ∀ (w : Fin 4 → Ω) x, Function.update w 1 x 1 = x := fun w x => Function.update_self ..
  have c1 := count_coordinate (1 : Fin 4) (fun w : Fin 4 → Ω => ¬ (P * f (w 1)).Bounded T1) (c := c) fun w => b1 hP _ fun x hx => by simpa using hx
  have c2 := count_coordinate (0 : Fin 4) (fun w : Fin 4 → Ω => ¬ (P * f (w 0)).Bounded T1) (c := c) fun w => b1 hP _ fun x hx => by simpa using hx
  have c3 := count_coordinate (2 : Fin 4) (fun w : Fin 4 → Ω => (P * f (w 1)).Bounded T1 ∧ ¬ (P * f (w 1) * f (w 2)).Bounded Tu) (c := c) fun w => by
    by_cases hb : (P * f (w 1)).Bounded T1
    · exact b2 hb _ fun x hx => by simpa using hx.2
    · rw [filter_false_of_mem fun x _ hx => hb (by simpa using hx.1)]; simpa using zero
  have c4 := count_coordinate (3 : Fin 4) (fun w : Fin 4 → Ω => (P * f (w 0)).Bounded T1 ∧ ¬ (P * f (w 0) * f (w 3)).Bounded Tu) (c := c) fun w => by
    by_cases hb : (P * f (w 0)).Bounded T1
    · exact b2 hb _ fun x hx => by simpa using hx.2
    · rw [filter_false_of_mem fun x _ hx => hb (by simpa using hx.1)]; simpa using zero
  have c5 := count_coordinate (0 : Fin 4) (fun w : Fin 4 → Ω => ¬ (G (f (w 2) * A + f (w 3)) * f (w 0)).Bounded Ta) (c := c) fun w =>
    b3 (hG (f (w 2) * A + f (w 3))) _ fun x hx => by simpa using hx
  have hsub : univ.filter p ⊆ ((((univ.filter fun w : Fin 4 → Ω => ¬ (P * f (w 1)).Bounded T1) ∪ (univ.filter fun w => ¬ (P * f (w 0)).Bounded T1)) ∪
      (univ.filter fun w => (P * f (w 1)).Bounded T1 ∧ ¬ (P * f (w 1) * f (w 2)).Bounded Tu)) ∪
      (univ.filter fun w => (P * f (w 0)).Bounded T1 ∧ ¬ (P * f (w 0) * f (w 3)).Bounded Tu)) ∪
      (univ.filter fun w => ¬ (G (f (w 2) * A + f (w 3)) * f (w 0)).Bounded Ta) := fun w hw => by
    have hw : p w := (mem_filter.1 hw).2
    have := hp w
    simp only [mem_union, mem_filter, mem_univ, true_and]
    tauto
  have hle := (card_le_card hsub).trans ((card_union_le _ _).trans (Nat.add_le_add_right ((card_union_le _ _).trans (Nat.add_le_add_right ((card_union_le _ _).trans (Nat.add_le_add_right (card_union_le _ _) _)) _)) _))
  have hle' := (Nat.cast_le (α := ℝ)).2 hle
  simp only [Nat.cast_add] at hle'
  linarith

theorem typical_count {N v W : Nat} (h1 : 1 ≤ v) (h2 : v ≤ 32) (hW : if v ≤ 16 then 4 * v * N ≤ 64 * W else 2 * N ≤ W) {G : IntPoly N → IntPoly N} {P A : IntPoly N} {t Qc L T1 Tu Ta : Nat}
    (hG : ∀ X, (G X).Bounded Qc) (hQc : 0 < Qc) (hP : P.Bounded t) (ht : 0 < t) (hT1 : 0 < T1) (b1 : 2 * v * N * t ^ 2 * L ≤ T1 ^ 2) (b2 : 2 * v * N * T1 ^ 2 * L ≤ Tu ^ 2) (b3 : 2 * v * N * Qc ^ 2 * L ≤ Ta ^ 2)
    {p : (Fin 4 → Fin W → Fin (2 ^ 64)) → Prop} [DecidablePred p]
    (hp : ∀ w, (P * sampled N v (w 1) * sampled N v (w 2)).Bounded Tu → (P * sampled N v (w 0) * sampled N v (w 3)).Bounded Tu →
      (G (sampled N v (w 2) * A + sampled N v (w 3)) * sampled N v (w 0)).Bounded Ta → ¬ p w) :
    ((univ.filter p).card : ℝ) ≤ 5 * (2 * N * Real.exp (-(L : ℝ))) * (2 ^ (64 * W)) ^ 4 := by
  have hcard : (Fintype.card (Fin W → Fin (2 ^ 64)) : ℝ) = 2 ^ (64 * W) := by
    rw [Fintype.card_fun, Fintype.card_fin, Fintype.card_fin, ← pow_mul]; push_cast; rfl
  have hcard4 : (Fintype.card (Fin 4 → Fin W → Fin (2 ^ 64)) : ℝ) = (2 ^ (64 * W)) ^ 4 := by
    rw [Fintype.card_fun, Fintype.card_fin, Nat.cast_pow, hcard]
  have tail : ∀ {B T : Nat}, 0 < B → 2 * v * N * B ^ 2 * L ≤ T ^ 2 → ∀ {F : IntPoly N}, F.Bounded B → ∀ q : (Fin W → Fin (2 ^ 64)) → Prop, ∀ [DecidablePred q], (∀ x, q x → ¬ (F * sampled N v x).Bounded T) →
      ((univ.filter q).card : ℝ) ≤ 2 * N * Real.exp (-(L : ℝ)) * Fintype.card (Fin W → Fin (2 ^ 64)) := fun hB hT F hF q _ hq => by
    classical
    rw [hcard]
    refine le_trans ?_ (product_tail h1 h2 hW hF hB hT)
    exact_mod_cast card_le_card fun x hx => mem_filter.2 ⟨mem_univ _, hq x (mem_filter.1 hx).2⟩
  rw [← hcard4]
  exact typical_count_aux (by positivity) hG hP (tail ht b1) (tail hT1 b2) (tail hQc b3) hp

/-- The same for two samples of an encryption and two fixed polynomials. -/
theorem fresh_count {N : Nat} {Ω : Type} [Fintype Ω] [DecidableEq Ω] {f : Ω → IntPoly N} {F F' : IntPoly N} {T : Nat} {c : ℝ} [DecidablePred fun x => ¬ (F * f x).Bounded T] [DecidablePred fun x => ¬ (F' * f x).Bounded T]
    (b1 : ((univ.filter fun x => ¬ (F * f x).Bounded T).card : ℝ) ≤ c * Fintype.card Ω) (b2 : ((univ.filter fun x => ¬ (F' * f x).Bounded T).card : ℝ) ≤ c * Fintype.card Ω)
    {p : (Fin 2 → Ω) → Prop} [DecidablePred p] (hp : ∀ w, (F * f (w 0)).Bounded T → (F' * f (w 1)).Bounded T → ¬ p w) : ((univ.filter p).card : ℝ) ≤ 2 * c * Fintype.card (Fin 2 → Ω) := by
  classical
  have c1 := count_coordinate (0 : Fin 2) (fun w : Fin 2 → Ω => ¬ (F * f (w 0)).Bounded T) (c := c) fun w => le_trans (by
    exact_mod_cast card_le_card fun x hx => by simpa using hx) b1
  have c2 := count_coordinate (1 : Fin 2) (fun w : Fin 2 → Ω => ¬ (F' * f (w 1)).Bounded T) (c := c) fun w => le_trans (by
    exact_mod_cast card_le_card fun x hx => by simpa using hx) b2
  have hsub : univ.filter p ⊆ (univ.filter fun w : Fin 2 → Ω => ¬ (F * f (w 0)).Bounded T) ∪ (univ.filter fun w => ¬ (F' * f (w 1)).Bounded T) := fun w hw => by
    have hw : p w := (mem_filter.1 hw).2
    have := hp w
    simp only [mem_union, mem_filter, mem_univ, true_and]
    tauto
  have hle' := (Nat.cast_le (α := ℝ)).2 ((card_le_card hsub).trans (card_union_le _ _))
  rw [Nat.cast_add] at hle'
  linarith

end Fhe.Props
