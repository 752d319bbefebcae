import Verif.Lemmas.BfvCipher
/-!
# Decryption
-/
namespace Fhe
open Nega Poly

/-- Rounding `t X / Q` gives the message. -/
theorem decrypt_round {Q t : Nat} (hQ : 0 < Q) (ht : 2 ≤ t) {X M v z : Int} (hX : (t : Int) * X = Q * M + v) (hv : 2 ^ 62 * |v| ≤ (2 ^ 61 - 1) * (Q : Int))
    (hz : Spec.IsScaled Q t Q (X % Q).toNat z) : (t : Int) ∣ z - M ∧ -(t : Int) < z ∧ z < t := by
  obtain ⟨c, hc, hcb, h1, h2, -⟩ := hz
  have hQ' : (0 : Int) < Q := by exact_mod_cast hQ
  have hmod : ∃ h, c = X - Q * h := by
    have h0 : ((X % (Q : Int)).toNat : Int) = X % Q := Int.toNat_of_nonneg (Int.emod_nonneg _ hQ'.ne')
    have h3 := Int.mul_ediv_add_emod X Q
    rcases hc with e | e
    · exact ⟨X / Q, by rw [e, h0]; linarith⟩
    · exact ⟨X / Q + 1, by rw [e, h0]; linarith⟩
  obtain ⟨h, hh⟩ := hmod
  have htc : (t : Int) * c = Q * (M - t * h) + v := by rw [hh]; linear_combination hX
  have hva := abs_le.1 (le_refl |v|)
  have hD : z - (M - t * h) = 0 := by
    by_contra hne
    rcases lt_or_gt_of_ne hne with hlt | hgt
    · have : (Q : Int) * (z - (M - t * h)) ≤ Q * (-1) := mul_le_mul_of_nonneg_left (by omega) hQ'.le
      have e1 : (Q : Int) * (z - (M - t * h)) = Q * z - Q * (M - t * h) := by ring
      rw [show 2 * (t : Int) * c = 2 * (t * c) by ring, htc] at h1
      rw [show 2 * (Q : Int) * z = 2 * (Q * z) by ring] at h1
      linarith [hva.1]
    · have : (Q : Int) * 1 ≤ Q * (z - (M - t * h)) := mul_le_mul_of_nonneg_left (by omega) hQ'.le
      have e1 : (Q : Int) * (z - (M - t * h)) = Q * z - Q * (M - t * h) := by ring
      rw [show 2 * (t : Int) * c = 2 * (t * c) by ring, htc, show 2 * (Q : Int) * z = 2 * (Q * z) by ring] at h2
      linarith [hva.2]
  refine ⟨⟨-h, by linear_combination hD⟩, ?_⟩
  have hca := abs_le.1 (le_refl |c|)
  have ht' : (2 : Int) ≤ t := by exact_mod_cast ht
  have hW : 2 * (Q : Int) ≤ t * Q := mul_le_mul_of_nonneg_right ht' hQ'.le
  have hcb' : (t : Int) * (2 * |c| * 2 ^ 55) ≤ t * (Q * (2 ^ 55 + 1)) := mul_le_mul_of_nonneg_left hcb (by omega)
  have hc1 : (t : Int) * c ≤ t * |c| := mul_le_mul_of_nonneg_left hca.2 (by omega)
  have hc2 : (t : Int) * (-|c|) ≤ t * c := mul_le_mul_of_nonneg_left hca.1 (by omega)
  rw [show 2 * (t : Int) * c = 2 * (t * c) by ring, show 2 * (Q : Int) * z = 2 * (Q * z) by ring] at h1 h2
  rw [show (t : Int) * (2 * |c| * 2 ^ 55) = 2 ^ 56 * (t * |c|) by ring, show (t : Int) * (Q * (2 ^ 55 + 1)) = (2 ^ 55 + 1) * (t * Q) by ring] at hcb'
  rw [mul_neg] at hc2
  constructor
  · by_contra hlt
    have : (Q : Int) * z ≤ Q * (-t) := mul_le_mul_of_nonneg_left (by omega) hQ'.le
    rw [mul_neg, mul_comm (Q : Int) t] at this
    linarith
  · by_contra hlt
    have : (Q : Int) * t ≤ Q * z := mul_le_mul_of_nonneg_left (by omega) hQ'.le
    rw [mul_comm (Q : Int) t] at this
    linarith

variable {b : Build} {n : Nat} {par : Par} {i : Nat} {l : ContextLevel}

theorem sum_filter_le : ∀ (moduli garner : List Nat) (p : Nat → Prop) [DecidablePred p],
    ((moduli.zip garner).map fun qg => if p qg.2 then 0 else qg.1).sum ≤ moduli.sum
  | [], _, _, _ => by simp
  | _ :: _, [], _, _ => by simp
  | q :: qs, g :: gs, p, _ => by
    rw [List.zip_cons_cons, List.map_cons, List.sum_cons, List.sum_cons]
    have := sum_filter_le qs gs p
    dsimp only
    split <;> omega

theorem take_sum_le (v : List Nat) (k : Nat) : (v.take k).sum ≤ v.sum := by
  conv_rhs => rw [← List.take_append_drop k v, List.sum_append]
  omega

theorem AtLevel.room (h : AtLevel b n par i l) (hs : par.moduli.sum ≤ 2 ^ 65) :
    Spec.scalerRoom l.ctx.moduli l.ctx.rns.garner par.plaintext.value l.ctx.modulus ≤ 2 ^ 65 := by
  unfold Spec.scalerRoom
  rw [if_pos (by rw [h.wf.modulus_eq]; exact dvd_mul_left _ _), add_zero]
  refine (sum_filter_le _ _ (fun g => l.ctx.modulus ∣ par.plaintext.value * g)).trans ?_
  rw [h.moduli]
  exact (take_sum_le _ _).trans hs

/-! ## The plaintext context -/

theorem plaintextCount_spec (tb : Nat) : ∀ (sizes : List Nat) (acc count : Nat), ∃ k ≤ sizes.length, ParamsBuilder.plaintextCount tb sizes acc count = count + k ∧
    (k = sizes.length ∨ tb + 60 ≤ acc + (sizes.take k).sum)
  | [], acc, count => ⟨0, by simp, rfl, Or.inl rfl⟩
  | a :: sizes, acc, count => by
    unfold ParamsBuilder.plaintextCount
    split
    · exact ⟨1, by simp, rfl, Or.inr (by simp; omega)⟩
    · obtain ⟨k, h1, h2, h3⟩ := plaintextCount_spec tb sizes (acc + a) (count + 1)
      refine ⟨k + 1, by simp; omega, by omega, ?_⟩
      rcases h3 with rfl | h3
      · left; simp
      · right; rw [List.take_succ_cons, List.sum_cons]; omega

theorem prod_ge_pow {v : List Nat} (h : ∀ m ∈ v, 1 ≤ m ∧ m < 2 ^ 62) : 2 ^ (v.map fun m => 64 - lz64 m).sum ≤ v.prod * 2 ^ v.length := by
  induction v with
  | nil => simp
  | cons m v ih =>
    have h1 := ih fun x hx => h x (List.mem_cons_of_mem _ hx)
    obtain ⟨h2, h3⟩ := h m (by simp)
    have hb : bitLen m ≤ 62 := bitLen_le_iff.2 h3
    have e : 64 - lz64 m = bitLen m := by unfold lz64; omega
    have hm : 2 ^ (bitLen m) ≤ m * 2 := by
      have hne : bitLen m ≠ 0 := by
        intro h0
        have := bitLen_le_iff.1 (le_of_eq h0)
        omega
      have : ¬ bitLen m ≤ bitLen m - 1 := by omega
      rw [bitLen_le_iff] at this
      obtain ⟨k, hk⟩ : ∃ k, bitLen m = k + 1 := ⟨bitLen m - 1, by omega⟩
      rw [hk] at this ⊢
      rw [pow_succ]; simp at this; omega
    rw [List.map_cons, List.sum_cons, List.prod_cons, List.length_cons, e, pow_add, pow_succ]
    calc 2 ^ bitLen m * 2 ^ (v.map fun m => 64 - lz64 m).sum ≤ (m * 2) * (v.prod * 2 ^ v.length) := Nat.mul_le_mul hm h1
      _ = _ := by ring

theorem prod_take_le {v : List Nat} (h : ∀ m ∈ v, 1 ≤ m) (k : Nat) : (v.take k).prod ≤ v.prod := by
  conv_rhs => rw [← List.take_append_drop k v, List.prod_append]
  have : 1 ≤ (v.drop k).prod := Nat.one_le_iff_ne_zero.2 (List.prod_ne_zero (fun h0 => by have := h 0 (List.mem_of_mem_drop h0); omega))
  exact Nat.le_mul_of_pos_right _ this

theorem plaintextModulus_ge (hw : ParWF b n par.toBfvParameters) (hr : par.toBfvParameters.Reliable i) :
    2 * par.plaintext.value ≤ (par.moduli.take (ParamsBuilder.plaintextModuliCount par.plaintext.value par.moduliSizes)).prod := by
  have hpos : ∀ m ∈ par.moduli, 1 ≤ m := fun m hm => by have := (hw.moduli.range m hm).1; omega
  have hQ : 2 * par.plaintext.value ≤ par.moduli.prod := hr.modulus.trans (prod_take_le hpos _)
  obtain ⟨k, h1, h2, h3⟩ := plaintextCount_spec (bitLen par.plaintext.value) par.moduliSizes 0 0
  have hlen : par.moduliSizes.length = par.moduli.length := by rw [hw.sizes, List.length_map]
  have hl0 := List.length_pos_of_ne_nil hw.ne_nil
  unfold ParamsBuilder.plaintextModuliCount
  rw [h2, hlen]
  rcases h3 with h3 | h3
  · rw [List.take_of_length_le (by omega)]; exact hQ
  · have hk : 1 ≤ k := by
      rcases Nat.eq_zero_or_pos k with rfl | h
      · simp at h3
      · exact h
    rw [show min (max (0 + k) 1) par.moduli.length = k by omega]
    have := prod_ge_pow (v := par.moduli.take k) fun m hm => ⟨hpos m (List.mem_of_mem_take hm), (hw.moduli.range m (List.mem_of_mem_take hm)).2⟩
    rw [List.length_take, show min k par.moduli.length = k by omega, List.map_take, ← hw.sizes] at this
    have ht := bitLen_le_iff.1 (le_refl (bitLen par.plaintext.value))
    have hcount := hr.count
    have h4 : 2 ^ (bitLen par.plaintext.value + 60) ≤ (par.moduli.take k).prod * 2 ^ k := (Nat.pow_le_pow_right (by norm_num) (by omega)).trans this
    have h5 : 2 ^ k ≤ 2 ^ 59 := Nat.pow_le_pow_right (by norm_num) (by omega)
    have h6 : 2 ^ (bitLen par.plaintext.value + 60) ≤ (par.moduli.take k).prod * 2 ^ 59 := h4.trans (Nat.mul_le_mul_left _ h5)
    rw [show bitLen par.plaintext.value + 60 = bitLen par.plaintext.value + 1 + 59 by ring, pow_add _ _ 59] at h6
    have h7 := Nat.le_of_mul_le_mul_right h6 (by positivity)
    rw [pow_succ] at h7
    omega

/-! ## The last steps -/

theorem add_mod_int {z : Int} {P t : Nat} (hP : 2 * t ≤ P) (h1 : -(t : Int) < z) (h2 : z < t) : (((z : Int) : ZMod P).val + t) % P = (z + t).toNat := by
  have hPpos : 0 < P := by omega
  have : NeZero P := ⟨hPpos.ne'⟩
  have hv := ZMod.val_intCast (n := P) z
  have h3 : (((((z : Int) : ZMod P).val + t) % P : Nat) : Int) = (z + t) % P := by push_cast; rw [hv]; simp
  rw [Int.emod_eq_of_lt (by omega) (by omega)] at h3
  omega

theorem coeffs_of_dvd {N t : Nat} (ht : 2 ≤ t) {m : Nega N (ZMod t)} {M : IntPoly N} (hM : ∀ j, ((M j : Int) : ZMod t) = m j) {z : Nat → Int}
    (hz : ∀ j : Fin N, (t : Int) ∣ z j - M j ∧ -(t : Int) < z j ∧ z j < t) : (tab N fun j => (z j + t).toNat % t) = msgCoeffs m := by
  have : NeZero t := ⟨by omega⟩
  apply List.ext_getElem
  · rw [length_tab, length_msgCoeffs]
  · intro j h1 h2
    rw [length_msgCoeffs] at h2
    simp only [tab, List.getElem_map, List.getElem_range, msgCoeffs, List.getElem_ofFn]
    obtain ⟨⟨k, hk⟩, h3, h4⟩ := hz ⟨j, h2⟩
    have e : ((m ⟨j, h2⟩).val : Int) = M ⟨j, h2⟩ % t := by rw [← hM, ZMod.val_intCast]
    have e2 : (((z j + t).toNat % t : Nat) : Int) = M ⟨j, h2⟩ % t := by
      push_cast
      rw [Int.toNat_of_nonneg (by simp only at h3; omega)]
      simp only at hk
      rw [show z j + t = M ⟨j, h2⟩ + t * (k + 1) by linear_combination hk, Int.add_mul_emod_self_left]
    omega

theorem prefixOf_map {v w : List Nat} {k : Nat} (h : prefixOf v k = some w) (f : Nat → Nat) : prefixOf (v.map f) k = some (w.map f) := by
  unfold prefixOf check at *
  by_cases hc : k ≤ v.length
  · simp only [hc, if_true, Option.bind_eq_bind, Option.bind_some, Option.pure_def, Option.some.injEq] at h
    rw [List.length_map, if_pos hc, ← h, ← List.map_take]; rfl
  · rw [if_neg hc] at h; simp at h

theorem mapM_add64 {v : List Nat} {t : Nat} (h : ∀ x ∈ v, x + t < 2 ^ 64) : v.mapM (fun x => add64 x t) = some (v.map (· + t)) := by
  induction v with
  | nil => rfl
  | cons a v ih => rw [List.mapM_cons, ih fun x hx => h x (List.mem_cons_of_mem _ hx), add64_eq (h a (by simp))]; rfl

theorem toU64_lt {c : Context} (h : c.WF b n) (f : c.Elem) {vt : Bool} : ∀ x ∈ (enc c .powerBasis vt f).toU64, x < 2 ^ 62 := by
  intro x hx
  unfold toU64 at hx
  obtain ⟨row, hrow, hx⟩ := List.mem_flatten.1 hx
  obtain ⟨op, hop, rfl⟩ := List.mem_map.1 hrow
  have hmem : op.p.p ∈ c.moduli := by rw [h.level.moduli]; exact List.mem_map.2 ⟨op, hop, rfl⟩
  have h1 := h.supported.range _ hmem
  have := pbRow_lt (by omega : 0 < op.p.p) f x hx
  omega

/-- The context of the plaintext modulus. -/
theorem plaintextCtx_wf (hw : ParWF b n par.toBfvParameters) {pc : Context}
    (hpc : Context.new b (par.moduli.take (ParamsBuilder.plaintextModuliCount par.plaintext.value par.moduliSizes)) par.degree = some (.ok pc)) :
    pc.WF b n ∧ pc.moduli = par.moduli.take (ParamsBuilder.plaintextModuliCount par.plaintext.value par.moduliSizes) ∧ pc.degree = par.degree := by
  obtain ⟨n', e, h2, h3⟩ := Context.new_inv hw.ok hpc
  rw [hw.degree] at e
  obtain rfl := Nat.pow_right_injective (le_refl 2) e
  exact ⟨h2, h3, by rw [h2.level.degree, hw.degree]⟩

/-- What the last steps of decryption do to the scaled phase `g`: `x ↦ ((x mod q₀) + t) mod q₀ mod t` for small plaintext moduli, and
`x ↦ (x + t) mod P mod t` for large ones. -/
theorem finish_raw (hw : ParWF b n par.toBfvParameters) (ha : AtLevel b n par i l) (hQ : par.plaintext.value ≤ par.modulusAt i) {pc : Context}
    (hpc : Context.new b (par.moduli.take (ParamsBuilder.plaintextModuliCount par.plaintext.value par.moduliSizes)) par.degree = some (.ok pc)) (g : pc.Elem) :
    ∃ w : List Nat, w.length = par.degree ∧ (∀ x ∈ w, x < par.plaintext.value) ∧
      SecretKey.finish b par (enc pc .powerBasis false g) l.ctx = Res.ok (enc l.ctx .ntt false (ofNats l.ctx w)) ∧
      (par.plaintext.value < 2 ^ 62 → ∃ q0, par.moduli.head? = some q0 ∧ 2 ≤ q0 ∧ q0 ∣ pc.modulus ∧
        w = tab par.degree fun j => ((coeff g j).val % q0 + par.plaintext.value) % q0 % par.plaintext.value) ∧
      (¬ par.plaintext.value < 2 ^ 62 → w = tab par.degree fun j => ((coeff g j).val + par.plaintext.value) % pc.modulus % par.plaintext.value) := by
  have ht := hw.t_pos
  rw [← ha.mod] at hQ
  obtain ⟨p1, p2, p3⟩ := plaintextCtx_wf hw hpc
  have := p1.neZero
  obtain ⟨q0, qs, hq⟩ := List.exists_cons_of_ne_nil hw.ne_nil
  have hhead : par.moduli.head? = some q0 := by rw [hq]; rfl
  have hq0 := hw.moduli.range q0 (by rw [hq]; simp)
  unfold SecretKey.finish
  rcases hw.plaintext with ⟨mt, g1, g2, g3⟩ | ⟨g2, g3⟩
  · rw [g3]
    simp only []
    obtain ⟨mw, mp, -⟩ := Modulus.WF_of_new g1
    rw [mapM_add64 (fun x hx => by have := toU64_lt p1 g x hx; rw [mp]; omega), Res.lift_some, Res.ok_bind]
    have hph : pc.moduli.head? = some q0 := by
      rw [p2, List.head?_take, if_neg, hhead]
      unfold ParamsBuilder.plaintextModuliCount
      rw [hw.sizes, List.length_map]
      have := List.length_pos_of_ne_nil hw.ne_nil
      omega
    have hd : q0 ∣ pc.modulus := by
      rw [p1.modulus_eq]
      exact List.dvd_prod (List.mem_of_mem_head? (by rw [hph]; rfl))
    have hfr : ∀ N, pc.degree = N → prefixOf (enc pc .powerBasis false g).toU64 N = some (pbRow g q0) := by
      rintro _ rfl; exact Plaintext.first_row p1 g hph
    rw [prefixOf_map (hfr _ p3), Res.lift_some, Res.ok_bind]
    rw [show par.moduli[0]? = some q0 by rw [hq]; rfl, Res.lift_some, Res.ok_bind]
    obtain ⟨Q0, hQ0, hQp, -, hQw⟩ := Modulus.new_eq_ok (cfg := b.cfg) (p := q0) hq0
    rw [hQ0, Res.lift_some, Res.ok_bind]
    simp only []
    have hrow : ∀ x ∈ (pbRow g q0).map (· + mt.p), x < 2 ^ 64 := by
      intro x hx
      obtain ⟨y, hy, rfl⟩ := List.mem_map.1 hx
      have := pbRow_lt (by omega : 0 < q0) g y hy
      rw [mp]; omega
    rw [Modulus.reduceVec_eq hQw hrow, Res.lift_some, Res.ok_bind, Modulus.reduceVec_eq mw (fun x hx => by
      obtain ⟨y, hy, rfl⟩ := List.mem_map.1 hx
      have := Nat.mod_lt y (by omega : Q0.p > 0)
      omega), Res.lift_some, Res.ok_bind]
    have hres : ((((pbRow g q0).map (· + mt.p)).map (· % Q0.p)).map (· % mt.p)) =
        tab par.degree fun j => ((coeff g j).val % q0 + par.plaintext.value) % q0 % par.plaintext.value := by
      rw [hQp, mp]
      unfold pbRow
      refine List.ext_getElem (by simp [tab, p3]) fun j h1 h2 => ?_
      simp only [tab, List.getElem_map, List.getElem_range]
    rw [hres]
    have hlt : ∀ x ∈ tab par.degree fun j => ((coeff g j).val % q0 + par.plaintext.value) % q0 % par.plaintext.value, x < par.plaintext.value := by
      intro x hx
      obtain ⟨j, -, rfl⟩ := List.mem_map.1 hx
      exact Nat.mod_lt _ (by omega)
    refine ⟨_, length_tab _ _, hlt, ?_, fun _ => ⟨q0, hhead, hq0.1, hd, rfl⟩, fun h => absurd g2.2 h⟩
    rw [tryFromU64_full ha.wf (by rw [length_tab, ha.deg]) (fun x hx => by have := hlt x hx; omega) (fun x hx => by have := hlt x hx; omega), Res.math_ok, Res.ok_bind,
      intoNtt_enc ha.wf, Res.lift_some]
  · rw [g3]
    simp only []
    rw [Plaintext.toBigUint_enc p1, Res.lift_some, Res.ok_bind]
    have hpre : prefixOf ((List.ofFn fun j : Fin pc.degree => (g j).val).map (· + par.plaintext.value)) par.degree =
        some ((List.ofFn fun j : Fin pc.degree => (g j).val).map (· + par.plaintext.value)) := by
      unfold prefixOf
      rw [check_eq (by simp [p3])]
      simp only [Option.bind_eq_bind, Option.bind_some, Option.pure_def, Option.some.injEq]
      rw [List.take_of_length_le (by simp [p3])]
    rw [hpre, Res.lift_some, Res.ok_bind]
    change ∃ w : List Nat, _ ∧ _ ∧ (lift (check (pc.modulus ≠ 0)) >>= _) = _ ∧ _
    rw [check_eq (NeZero.ne _), Res.lift_some, Res.ok_bind]
    unfold PlaintextModulus.reduceVec
    rw [check_eq (Or.inl (by omega))]
    simp only [Option.bind_eq_bind, Option.bind_some, Option.pure_def]
    rw [Res.lift_some, Res.ok_bind]
    have hres : ((((List.ofFn fun j : Fin pc.degree => (g j).val).map (· + par.plaintext.value)).map (· % pc.modulus)).map (· % par.plaintext.value)) =
        tab par.degree fun j => ((coeff g j).val + par.plaintext.value) % pc.modulus % par.plaintext.value := by
      apply List.ext_getElem
      · simp [p3, tab]
      · intro j h1 h2
        rw [length_tab] at h2
        simp only [List.getElem_map, List.getElem_ofFn, tab, List.getElem_range]
        rw [coeff_of_lt _ (by rw [p3]; exact h2)]
    refine ⟨_, length_tab _ _, ?_, ?_, fun h => by omega, fun _ => rfl⟩
    · intro x hx
      obtain ⟨j, -, rfl⟩ := List.mem_map.1 hx
      exact Nat.mod_lt _ (by omega)
    · change (math (tryFromBigUint ((((List.ofFn fun j : Fin pc.degree => (g j).val).map (· + par.plaintext.value)).map (· % pc.modulus)).map (· % par.plaintext.value)) l.ctx false) >>= _) = _
      rw [hres, tryFromBigUint_eq ha.wf (by rw [length_tab, ha.deg]), Res.math_ok, Res.ok_bind, intoNtt_enc ha.wf, Res.lift_some]

theorem finish_eq (hw : ParWF b n par.toBfvParameters) (hr : par.toBfvParameters.Reliable i) (ha : AtLevel b n par i l) {pc : Context}
    (hpc : Context.new b (par.moduli.take (ParamsBuilder.plaintextModuliCount par.plaintext.value par.moduliSizes)) par.degree = some (.ok pc))
    {g : pc.Elem} {z : Nat → Int} (hg : ∀ j < par.degree, coeff g j = ((z j : Int) : ZMod pc.modulus)) {m : par.Msg} {M : IntPoly par.degree}
    (hM : ∀ j, ((M j : Int) : ZMod par.plaintext.value) = m j)
    (hz : ∀ j : Fin par.degree, (par.plaintext.value : Int) ∣ z j - M j ∧ -(par.plaintext.value : Int) < z j ∧ z j < par.plaintext.value) :
    SecretKey.finish b par (enc pc .powerBasis false g) l.ctx = Res.ok (enc l.ctx .ntt false (ofNats l.ctx (msgCoeffs m))) ∧ ∀ x ∈ msgCoeffs m, x < l.ctx.modulus := by
  have ht := hw.t_pos
  have : NeZero par.plaintext.value := ⟨by omega⟩
  have hmodl := hr.modulus
  have hlt : ∀ x ∈ msgCoeffs m, x < l.ctx.modulus := fun x hx => by have := msgCoeffs_lt m x hx; rw [ha.mod]; omega
  refine ⟨?_, hlt⟩
  have hmc := coeffs_of_dvd ht hM hz
  obtain ⟨p1, p2, p3⟩ := plaintextCtx_wf hw hpc
  have := p1.neZero
  obtain ⟨w, -, -, h3, h4, h5⟩ := finish_raw hw ha (by omega) hpc g
  rw [h3, ← hmc]
  congr 3
  by_cases h62 : par.plaintext.value < 2 ^ 62
  · obtain ⟨q0, hq, hq2, hd, rfl⟩ := h4 h62
    have h2t := hr.first h62 q0 hq
    refine List.map_congr_left fun j hj => ?_
    have hj : j < par.degree := List.mem_range.1 hj
    rw [hg j hj]
    have e : ((z j : Int) : ZMod pc.modulus).val % q0 = ((z j : Int) : ZMod q0).val := by
      have h1 := ZMod.val_intCast (n := pc.modulus) (z j)
      have : NeZero q0 := ⟨by omega⟩
      have h2 := ZMod.val_intCast (n := q0) (z j)
      have h3 : ((((z j : Int) : ZMod pc.modulus).val % q0 : Nat) : Int) = z j % q0 := by
        push_cast; rw [h1, Int.emod_emod_of_dvd _ (by exact_mod_cast hd)]
      omega
    rw [e, add_mod_int h2t (hz ⟨j, hj⟩).2.1 (hz ⟨j, hj⟩).2.2]
  · have h2P : 2 * par.plaintext.value ≤ pc.modulus := by rw [p1.modulus_eq, p2]; exact plaintextModulus_ge hw hr
    rw [h5 h62]
    refine List.map_congr_left fun j hj => ?_
    have hj : j < par.degree := List.mem_range.1 hj
    rw [hg j hj, add_mod_int h2P (hz ⟨j, hj⟩).2.1 (hz ⟨j, hj⟩).2.2]

/-- Decryption of any ciphertext under a known phase: the exact values before the last steps. -/
theorem tryDecrypt_raw (hw : ParWF b n par.toBfvParameters) (hcount : par.moduli.length ≤ 31) (hsum : par.moduli.sum ≤ 2 ^ 65) {s : IntPoly par.degree} {sk : SecretKey} (hk : sk.IsKey par s)
    {ct : Ciphertext} (ha : AtLevel b n par i l) (hpar : ct.par = par) (hlev : ct.level = i) (h2 : 2 ≤ ct.c.length) {F : List (IntPoly par.degree)} (hF : Ciphertext.Parts l.ctx ct.c F) :
    ∃ (pc : Context) (g : pc.Elem) (z : Nat → Int), Context.new b (par.moduli.take (ParamsBuilder.plaintextModuliCount par.plaintext.value par.moduliSizes)) par.degree = some (.ok pc) ∧
      (∀ j < par.degree, coeff g j = ((z j : Int) : ZMod pc.modulus)) ∧
      (∀ j : Fin par.degree, Spec.IsScaled l.ctx.modulus par.plaintext.value l.ctx.modulus (Fhe.phase s F j % (l.ctx.modulus : Int)).toNat (z j)) ∧
      sk.tryDecrypt b ct = (do return { par, encoding := none, polyNtt := ← SecretKey.finish b par (enc pc .powerBasis false g) l.ctx }) := by
  have ht := hw.t_pos
  have := ha.wf.neZero
  obtain ⟨pc, hpc, hlevs⟩ := hw.levels
  have hL := hlevs i l ha.get
  obtain ⟨SF, hSF, hS⟩ := hL.bridge.scaler
  rw [← hL.ctx] at hSF hS
  obtain ⟨p1, p2, p3⟩ := plaintextCtx_wf hw hpc
  obtain ⟨F', S', G, e1, e2, -, -, hz, hscale⟩ := Scaler.scale_enc ha.wf p1 (num := par.plaintext.value) (den := l.ctx.modulus)
    (by rw [ha.length]; omega) (NeZero.ne _) (ha.room hsum)
  rw [hSF] at e1
  obtain rfl : SF = F' := by simpa using e1
  rw [hS] at e2
  obtain rfl : l.cp.scaler = S' := by simpa using e2
  have hz' := hz (ofInt l.ctx (Fhe.phase s F))
  choose z hz1 hz2 using hz'
  refine ⟨pc, G (ofInt l.ctx (Fhe.phase s F)), z, hpc, fun j hj => hz2 j (by rw [p3]; exact hj), fun j => ?_, ?_⟩
  · have h1 := hz1 j
    rw [coeff_ofInt ha.deg, coeff_intCast] at h1
    have hval : (((Fhe.phase s F j : Int) : ZMod l.ctx.modulus)).val = (Fhe.phase s F j % (l.ctx.modulus : Int)).toNat := by
      have := ZMod.val_intCast (n := l.ctx.modulus) (Fhe.phase s F j)
      omega
    rwa [hval] at h1
  · unfold SecretKey.tryDecrypt
    rw [hk.par_eq, Ciphertext.validateFor_ok (l := l) (by rw [hlev]; exact ha) hpar h2 hF.ctx, Res.ok_bind, SecretKey.phase_eq hk ha.wf ha.deg hF (by
      intro h0; rw [h0] at h2; simp at h2), Res.ok_bind, hlev, ha.contextLevelAt, Res.ok_bind, nttToPowerBasis_encI ha.wf, Res.lift_some, Res.ok_bind]
    unfold encI
    rw [hscale _ _ _ (by simp), Res.math_ok, Res.ok_bind]
    have hhead : ct.c.head?.map (·.ctx) = some l.ctx := by
      cases hc : ct.c with
      | nil => rw [hc] at h2; simp at h2
      | cons p ps => simp [hF.ctx p (by rw [hc]; simp)]
    rw [hhead, Res.lift_some, Res.ok_bind]

/-- Decryption of a ciphertext with small noise. -/
theorem tryDecrypt_eq (hw : ParWF b n par.toBfvParameters) (hr : par.toBfvParameters.Reliable i) {s v : IntPoly par.degree} {sk : SecretKey} (hk : sk.IsKey par s)
    {ct : Ciphertext} {m : par.Msg} (hct : ct.Encrypts par s i m v) (hv : v.Small (par.modulusAt i)) :
    ∃ l, AtLevel b n par i l ∧ (∀ x ∈ msgCoeffs m, x < l.ctx.modulus) ∧
      sk.tryDecrypt b ct = Res.ok { par, encoding := none, polyNtt := enc l.ctx .ntt false (ofNats l.ctx (msgCoeffs m)) } := by
  obtain ⟨l, F, M, ha, hF, hM, hph⟩ := hct.elim hw
  have ht := hw.t_pos
  have := ha.wf.neZero
  obtain ⟨pc, g, z, hpc, hg, hz, hdec⟩ := tryDecrypt_raw hw hr.count hr.sum hk ha hct.par_eq hct.level_eq hct.parts hF
  have hfin := finish_eq hw hr ha hpc hg (m := m) (congrFun hM) (by
    intro j
    have h2 := congrFun hph j
    rw [Nega.add_apply, C_mul_apply, C_mul_apply, ← ha.mod] at h2
    have h3 := hv j
    rw [← ha.mod] at h3
    exact decrypt_round (NeZero.pos _) ht h2 h3 (hz j))
  refine ⟨l, ha, hfin.2, ?_⟩
  rw [hdec, hfin.1, Res.ok_bind]
  rfl

end Fhe
