import Verif.Lemmas.Laws
/-!
# How the message enters a ciphertext
-/
namespace Fhe
open Nega Poly Ciphertext

variable {b : Build} {n : Nat} {par : Par} {i : Nat} {l : ContextLevel} {s : IntPoly par.degree}

/-- Secret-key encryption adds the scaled message to polynomials that do not depend on it. -/
theorem SecretKey.tryEncrypt_mask (hw : ParWF b n par.toBfvParameters) (ha : AtLevel b n par i l) {sk : SecretKey} (hk : sk.IsKey par s) {g : Prg} (hg : g.OK)
    (hQ : par.plaintext.value ≤ par.modulusAt i) (seed : Seed) {rng : Nat → Nat} (hr : IsStream rng) :
    ∃ X A : IntPoly par.degree, ∀ {pt : Plaintext} {m : par.Msg}, pt.Holds par i m → sk.tryEncrypt g pt seed rng =
      Res.ok { par, seed := some seed, c := [encI l.ctx .ntt true (X + scaleMsg (par.modulusAt i) m), encI l.ctx .ntt true A], level := i } := by
  obtain ⟨e, heb, he⟩ := small_encI hw.variance.1 hw.variance.2 hr par.degree
  obtain ⟨A, hA⟩ := Prg.poly_encI hg ha.wf ha.deg .ntt seed
  refine ⟨e - A * s, A, fun {pt m} hpt => ?_⟩
  unfold SecretKey.tryEncrypt SecretKey.encryptPoly
  rw [hk.par_eq, hpt.validateFor hw ha, Res.ok_bind, Plaintext.toPoly_encI hw ha hQ hpt, Res.lift_some, Res.ok_bind, ctx_encI, ha.levelOf, Res.ok_bind,
    SecretKey.polyAt_encI hk ha.wf ha.deg, Res.ok_bind, hA, Res.lift_some, Res.ok_bind, mulAssign_encI ha.wf ha.deg, Res.lift_some, Res.ok_bind,
    (he ha.wf ha.deg).2.1, Res.math_ok, Res.ok_bind, subAssign_encI ha.wf ha.deg (by simp), Res.lift_some, Res.ok_bind, addAssign_encI ha.wf ha.deg (by simp), Res.lift_some, Res.ok_bind]
  rfl

/-- So does public-key encryption, with any ciphertext in the place of the key. -/
theorem PublicKey.tryEncrypt_mask (hw : ParWF b n par.toBfvParameters) (ha : AtLevel b n par i l) {pk : PublicKey} (hp : pk.par = par) (hpk : pk.c.Usable par) (hi : pk.c.level ≤ i)
    (hQ : par.plaintext.value ≤ par.modulusAt i) {rngU rng1 rng2 : Nat → Nat} (hU : IsStream rngU) (h1 : IsStream rng1) (h2 : IsStream rng2) :
    ∃ X A : IntPoly par.degree, ∀ {pt : Plaintext} {m : par.Msg}, pt.Holds par i m → pk.tryEncrypt pt rngU rng1 rng2 =
      Res.ok { par, seed := none, c := [encI l.ctx .ntt true (X + scaleMsg (par.modulusAt i) m), encI l.ctx .ntt true A], level := i } := by
  obtain ⟨m0, v0, he⟩ := hpk.encrypts hw 0
  have hilt := ha.lt
  obtain ⟨r, v', g1, g2, g3, g4, g5⟩ := Fhe.Ciphertext.switchLoop_eq hw (S := 0) (fun j => by simp) (i - pk.c.level) he (by omega)
  rw [show pk.c.level + (i - pk.c.level) = i by omega] at g2
  obtain ⟨l', F, M, ha', hF, hM, hph⟩ := g2.elim hw
  obtain rfl := ha.unique ha'
  obtain ⟨u, hub, hu⟩ := small_encI hw.variance.1 hw.variance.2 hU par.degree
  obtain ⟨e1, he1b, he1⟩ := small_encI hw.variance.1 hw.variance.2 h1 par.degree
  obtain ⟨e2, he2b, he2⟩ := small_encI hw.variance.1 hw.variance.2 h2 par.degree
  obtain ⟨l0, ha0⟩ := AtLevel.ofLt hw hpk.level
  have h2' := hpk.parts
  match hrc : r.c, g3, hF with
  | [], g3, _ => simp at g3; omega
  | [_], g3, _ => simp at g3; omega
  | p0 :: p1 :: ps, _, hF =>
    obtain ⟨f0, F', hp0, hF', rfl⟩ := List.forall₂_cons_left_iff.1 hF
    obtain ⟨f1, F'', hp1, hF'', rfl⟩ := List.forall₂_cons_left_iff.1 hF'
    obtain ⟨vt0, rfl⟩ := hp0
    obtain ⟨vt1, rfl⟩ := hp1
    refine ⟨u * f0 + e1, u * f1 + e2, fun {pt m} hpt => ?_⟩
    have hv : pk.c.validateFor par = Res.ok () := validateFor_ok ha0 hpk.par_eq hpk.parts fun p hp => by
      have := (hpk.valid p hp).2
      rw [ha0.contextAt, Res.ok_inj] at this
      exact this.symm
    unfold PublicKey.tryEncrypt
    rw [hp, hpt.validateFor hw ha, Res.ok_bind, hv, Res.ok_bind, hpt.level_eq hw ha, Res.lift_some, Res.ok_bind, if_neg (by omega), g1, Res.ok_bind,
      g2.level_eq, ha.contextAt, Res.ok_bind, (hu ha.wf ha.deg).2.1, Res.math_ok, Res.ok_bind, (he1 ha.wf ha.deg).2.1, Res.math_ok, Res.ok_bind, (he2 ha.wf ha.deg).2.1, Res.math_ok, Res.ok_bind,
      Plaintext.toPoly_encI hw ha hQ hpt, Res.lift_some, Res.ok_bind, hrc, List.getElem?_cons_zero, Res.lift_some, Res.ok_bind,
      mulAssign_encI ha.wf ha.deg, Res.lift_some, Res.ok_bind, addAssign_encI ha.wf ha.deg (by simp), Res.lift_some, Res.ok_bind, addAssign_encI ha.wf ha.deg (by simp), Res.lift_some, Res.ok_bind,
      List.getElem?_cons_succ, List.getElem?_cons_zero, Res.lift_some, Res.ok_bind,
      mulAssign_encI ha.wf ha.deg, Res.lift_some, Res.ok_bind, addAssign_encI ha.wf ha.deg (by simp), Res.lift_some, Res.ok_bind]
    rfl

/-- The scaled message determines the message, even modulo the modulus. -/
theorem scaleMsg_inj (hw : ParWF b n par.toBfvParameters) (ha : AtLevel b n par i l) (hQ : par.plaintext.value ≤ par.modulusAt i) {m m' : par.Msg}
    (h : ∀ j, (par.modulusAt i : Int) ∣ scaleMsg (par.modulusAt i) m j - scaleMsg (par.modulusAt i) m' j) : m = m' := by
  have ht := hw.t_pos
  have : NeZero par.plaintext.value := ⟨by omega⟩
  have hpos := ha.pos
  apply Nega.ext; intro j
  apply ZMod.val_injective
  have hj : (par.modulusAt i : Int) ∣ ((par.modulusAt i * (m j).val / par.plaintext.value : Nat) : Int) - ((par.modulusAt i * (m' j).val / par.plaintext.value : Nat) : Int) := h j
  have lt : ∀ x : ZMod par.plaintext.value, par.modulusAt i * x.val / par.plaintext.value < par.modulusAt i := fun x => by
    rw [Nat.div_lt_iff_lt_mul (by omega)]
    exact Nat.mul_lt_mul_of_pos_left (ZMod.val_lt x) hpos
  have mono : ∀ x y : ZMod par.plaintext.value, x.val < y.val → par.modulusAt i * x.val / par.plaintext.value < par.modulusAt i * y.val / par.plaintext.value := fun x y hxy => by
    have h1 : par.modulusAt i * x.val + par.plaintext.value ≤ par.modulusAt i * y.val := by
      calc par.modulusAt i * x.val + par.plaintext.value ≤ par.modulusAt i * x.val + par.modulusAt i := Nat.add_le_add_left hQ _
        _ = par.modulusAt i * (x.val + 1) := by ring
        _ ≤ _ := Nat.mul_le_mul_left _ hxy
    have h2 := Nat.div_le_div_right (c := par.plaintext.value) h1
    rw [Nat.add_div_right _ (by omega)] at h2
    omega
  have heq : par.modulusAt i * (m j).val / par.plaintext.value = par.modulusAt i * (m' j).val / par.plaintext.value := by
    have h1 := lt (m j)
    have h2 := lt (m' j)
    generalize par.modulusAt i * (m j).val / par.plaintext.value = e at hj h1 ⊢
    generalize par.modulusAt i * (m' j).val / par.plaintext.value = f at hj h2 ⊢
    have h3 := Int.eq_zero_of_abs_lt_dvd hj (by rw [abs_lt]; constructor <;> omega)
    omega
  rcases Nat.lt_trichotomy (m j).val (m' j).val with hc | hc | hc
  · have := mono _ _ hc; omega
  · exact hc
  · have := mono _ _ hc; omega

theorem mask_injective (hw : ParWF b n par.toBfvParameters) (ha : AtLevel b n par i l) (hQ : par.plaintext.value ≤ par.modulusAt i) {m m' : par.Msg} (X A : IntPoly par.degree) {seed : Option Seed} :
    Ciphertext.beq { par, seed, c := [encI l.ctx .ntt true (X + scaleMsg (par.modulusAt i) m), encI l.ctx .ntt true A], level := i }
      { par, seed, c := [encI l.ctx .ntt true (X + scaleMsg (par.modulusAt i) m'), encI l.ctx .ntt true A], level := i } = true ↔ m = m' := by
  constructor
  · intro h
    unfold Ciphertext.beq at h
    simp only [Bool.and_eq_true, List.zip_cons_cons, List.all_cons] at h
    have h1 := beq_iff.1 h.1.2.1
    have h2 : encI l.ctx .ntt false (X + scaleMsg (par.modulusAt i) m) = encI l.ctx .ntt false (X + scaleMsg (par.modulusAt i) m') := h1
    refine scaleMsg_inj hw ha hQ fun j => ?_
    have h3 := isMod_encI (r := .ntt) (vt := false) ha.wf ha.deg (X + scaleMsg (par.modulusAt i) m')
    rw [← h2] at h3
    have h4 := Poly.IsMod.congr (by rw [ha.mod]; exact ha.pos) (isMod_encI (r := .ntt) (vt := false) ha.wf ha.deg (X + scaleMsg (par.modulusAt i) m)) h3 j
    have h5 := Int.ModEq.dvd (a := (X + scaleMsg (par.modulusAt i) m') j) (b := (X + scaleMsg (par.modulusAt i) m) j) h4.symm
    rw [Nega.add_apply, Nega.add_apply, add_sub_add_left_eq_sub, ha.mod] at h5
    exact h5
  · rintro rfl
    have i1 : Is par i l { par, seed, c := [encI l.ctx .ntt true (X + scaleMsg (par.modulusAt i) m), encI l.ctx .ntt true A], level := i }
      [X + scaleMsg (par.modulusAt i) m, A] := ⟨rfl, rfl, .cons ⟨_, rfl⟩ (.cons ⟨_, rfl⟩ .nil)⟩
    exact i1.beq i1 rfl

theorem tail_same (par : Par) (seed : Option Seed) (i : Nat) (p p' q : Poly .ntt) : (Ciphertext.mk par seed [p, q] i).c.tail = (Ciphertext.mk par seed [p', q] i).c.tail ∧
    (Ciphertext.mk par seed [p, q] i).seed = (Ciphertext.mk par seed [p', q] i).seed := ⟨rfl, rfl⟩

end Fhe
