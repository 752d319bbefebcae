import Verif.Spec.Secrecy
import Verif.Lemmas.Masking
import Verif.Lemmas.Drawn
/-!
# Ciphertexts as sums of samples and messages
-/
namespace Fhe.Secrecy
open Nega Poly Ciphertext Finset

variable {b : Build} {n : Nat} {par : Par} {i : Nat} {l : ContextLevel}

theorem pr_equiv {Ω Ω' : Type} [Fintype Ω] [Fintype Ω'] (e : Ω ≃ Ω') {f : Ω → Bool} {f' : Ω' → Bool} (h : ∀ ω, f ω = f' (e ω)) : pr f = pr f' := by
  unfold pr
  rw [Fintype.card_congr e, Finset.card_equiv e (t := univ.filter fun ω => f' ω = true) (by simp [h])]

/-- The polynomial with the given coefficients. -/
def intOf (x : Coeffs par i) : IntPoly par.degree := fun j => ((x j : Nat) : Int)

/-- The coefficients of the reduction of a polynomial. -/
def reduce (par : Par) (i : Nat) [NeZero (par.modulusAt i)] (F : IntPoly par.degree) : Coeffs par i := fun j =>
  ⟨(F j % par.modulusAt i).toNat, by
    have h0 : (0 : Int) < par.modulusAt i := by exact_mod_cast Nat.pos_of_ne_zero (NeZero.ne _)
    have h1 := Int.emod_nonneg (F j) h0.ne'
    have h2 := Int.emod_lt_of_pos (F j) h0
    omega⟩

theorem intOf_reduce [NeZero (par.modulusAt i)] (F : IntPoly par.degree) (j : Fin par.degree) : intOf (reduce par i F) j = F j % par.modulusAt i := by
  have h0 : (0 : Int) < par.modulusAt i := by exact_mod_cast Nat.pos_of_ne_zero (NeZero.ne _)
  exact Int.toNat_of_nonneg (Int.emod_nonneg (F j) h0.ne')

theorem encI_reduce [NeZero (par.modulusAt i)] (ha : AtLevel b n par i l) (F G : IntPoly par.degree) (r : Rep) (vt : Bool) :
    encI l.ctx r vt (intOf (reduce par i F) + G) = encI l.ctx r vt (F + G) := by
  unfold encI
  rw [(ofInt_eq_iff ha.deg _ _).2 fun j => ?_]
  rw [Nega.add_apply, Nega.add_apply, add_sub_add_right_eq_sub, intOf_reduce, ha.mod]
  exact (Int.mod_modEq (F j) _).symm.dvd

theorem polyOf_eq (ha : AtLevel b n par i l) (x : Coeffs par i) : polyOf l.ctx x = Res.ok (encI l.ctx .ntt false (intOf x)) := by
  unfold polyOf tryFromBigUintNtt
  rw [tryFromBigUint_eq ha.wf (by rw [List.length_ofFn, ha.deg])]
  simp only [Option.bind_eq_bind, Option.bind_some]
  rw [intoNtt_enc ha.wf, ofNats_eq_ofInt ha.deg]
  show math (some (.ok _)) = _
  rw [Res.math_ok]
  congr 3
  funext j
  show (List.map _ _).getD j.val 0 = _
  rw [List.getD_eq_getElem _ _ (by simp), List.getElem_map, List.getElem_ofFn]; rfl

theorem secretFrom_eq (hw : ParWF b n par.toBfvParameters) (ha : AtLevel b n par i l) (hQ : par.plaintext.value ≤ par.modulusAt i) {g : Prg} {pt : Plaintext} {m : par.Msg} (hpt : pt.Holds par i m)
    {σ : Bytes32} {A : IntPoly par.degree} (hA : g.poly .ntt l.ctx (seedOf σ) = some (encI l.ctx .ntt false A)) (x : Coeffs par i) :
    secretFrom g pt σ x =
      Res.ok { par, seed := some (seedOf σ), c := [encI l.ctx .ntt true (intOf x + scaleMsg (par.modulusAt i) m), encI l.ctx .ntt true A], level := i } := by
  unfold secretFrom
  rw [ha.contextAt, Res.ok_bind, hA, Res.lift_some, Res.ok_bind, polyOf_eq ha, Res.ok_bind, Plaintext.toPoly_encI hw ha hQ hpt, Res.lift_some, Res.ok_bind, addAssign_encI ha.wf ha.deg (by simp),
    Res.lift_some, Res.ok_bind]
  rfl

theorem isStream_words {W : Nat} (w : Words W) : IsStream (wordsOf w) := fun j => by
  unfold wordsOf; split <;> [exact (w _).isLt; norm_num]

theorem drawn_sample {W : Nat} (w : Words W) : drawn par.degree par.variance (wordsOf w) = sample par w := drawn_words w

/-- Secret-key encryption adds the message to a sample. -/
theorem tryEncrypt_eq (hw : ParWF b n par.toBfvParameters) (ha : AtLevel b n par i l) {sk : SecretKey} {s : IntPoly par.degree} (hk : sk.IsKey par s) {g : Prg}
    (hQ : par.plaintext.value ≤ par.modulusAt i) {seed : Seed} {W : Nat} (w : Words W) {pt : Plaintext} {m : par.Msg} (hpt : pt.Holds par i m) {A : IntPoly par.degree}
    (hA : g.poly .ntt l.ctx seed = some (encI l.ctx .ntt false A)) : sk.tryEncrypt g pt seed (wordsOf w) =
      Res.ok { par, seed := some seed, c := [encI l.ctx .ntt true (A * -s + sample par w + scaleMsg (par.modulusAt i) m), encI l.ctx .ntt true A], level := i } := by
  obtain ⟨heb, he⟩ := drawn_encI hw.variance.1 hw.variance.2 (isStream_words w) par.degree
  rw [drawn_sample] at he
  rw [show A * -s + sample par w = sample par w - A * s by ring]
  unfold SecretKey.tryEncrypt SecretKey.encryptPoly
  rw [hk.par_eq, hpt.validateFor hw ha, Res.ok_bind, Plaintext.toPoly_encI hw ha hQ hpt, Res.lift_some, Res.ok_bind, ctx_encI, ha.levelOf, Res.ok_bind,
    SecretKey.polyAt_encI hk ha.wf ha.deg, Res.ok_bind, hA, Res.lift_some, Res.ok_bind, mulAssign_encI ha.wf ha.deg, Res.lift_some, Res.ok_bind,
    he ha.wf ha.deg, Res.math_ok, Res.ok_bind, subAssign_encI ha.wf ha.deg (by simp), Res.lift_some, Res.ok_bind, addAssign_encI ha.wf ha.deg (by simp), Res.lift_some, Res.ok_bind]
  rfl

/-- Adding the same polynomial to all coefficients is a bijection of them. -/
def shift (par : Par) (i : Nat) [NeZero (par.modulusAt i)] (F : IntPoly par.degree) : Coeffs par i ≃ Coeffs par i :=
  Equiv.addRight (reduce par i F)

theorem encI_shift [NeZero (par.modulusAt i)] (ha : AtLevel b n par i l) (F G : IntPoly par.degree) (x : Coeffs par i) (r : Rep) (vt : Bool) :
    encI l.ctx r vt (intOf (shift par i F x) + G) = encI l.ctx r vt (intOf x + (F + G)) := by
  unfold encI
  rw [(ofInt_eq_iff ha.deg _ _).2 fun j => ?_]
  rw [Nega.add_apply, Nega.add_apply, Nega.add_apply, ha.mod]
  have h1 : intOf (shift par i F x) j = (intOf x j + intOf (reduce par i F) j) % par.modulusAt i := by
    show ((x j + reduce par i F j : Fin (par.modulusAt i)).val : Int) = _
    rw [Fin.val_add]; push_cast; rfl
  rw [h1, intOf_reduce]
  have h2 : (intOf x j + F j % par.modulusAt i) % par.modulusAt i ≡ intOf x j + F j [ZMOD par.modulusAt i] :=
    (Int.mod_modEq _ _).trans ((Int.ModEq.refl _).add (Int.mod_modEq _ _))
  have := (h2.add_right (G j)).symm.dvd
  rwa [add_assoc (intOf x j) (F j) (G j)] at this

theorem publicFrom_eq (ha : AtLevel b n par 0 l) {g : Prg} {σ : Bytes32} {A : IntPoly par.degree} (hA : g.poly .ntt l.ctx (seedOf σ) = some (encI l.ctx .ntt false A)) (x : Coeffs par 0) :
    publicFrom g σ x = some ⟨par, { par, seed := some (seedOf σ), c := [encI l.ctx .ntt false (intOf x), encI l.ctx .ntt false A], level := 0 }⟩ := by
  unfold publicFrom
  rw [ha.contextAt, Res.unwrap_ok, Option.bind_eq_bind, Option.bind_some, hA, Option.bind_eq_bind, Option.bind_some, polyOf_eq ha, Res.unwrap_ok]
  rfl

theorem pairFrom_eq (hw : ParWF b n par.toBfvParameters) (ha : AtLevel b n par 0 l) (hQ : par.plaintext.value ≤ par.modulusAt 0) {pt : Plaintext} {m : par.Msg} (hpt : pt.Holds par 0 m)
    (x : Coeffs par 0 × Coeffs par 0) : pairFrom pt x =
      Res.ok { par, seed := none, c := [encI l.ctx .ntt true (intOf x.1 + scaleMsg (par.modulusAt 0) m), encI l.ctx .ntt true (intOf x.2)], level := 0 } := by
  unfold pairFrom
  rw [ha.contextAt, Res.ok_bind, polyOf_eq ha, Res.ok_bind, Plaintext.toPoly_encI hw ha hQ hpt, Res.lift_some, Res.ok_bind, addAssign_encI ha.wf ha.deg (by simp), Res.lift_some, Res.ok_bind,
    polyOf_eq ha, Res.ok_bind]
  rfl

theorem encI_reduce' [NeZero (par.modulusAt i)] (ha : AtLevel b n par i l) (F : IntPoly par.degree) (r : Rep) (vt : Bool) : encI l.ctx r vt (intOf (reduce par i F)) = encI l.ctx r vt F := by
  have := encI_reduce ha F 0 r vt
  rwa [add_zero, add_zero] at this

theorem isLwe_reduce [NeZero (par.modulusAt i)] (ha : AtLevel b n par i l) (A s e : IntPoly par.degree) (vt : Bool) :
    IsLwe l.ctx (encI l.ctx .ntt vt A) s e (reduce par i (A * s + e)) :=
  ⟨A, isMod_encI ha.wf ha.deg _, fun t => by
    have := intOf_reduce (par := par) (i := i) (A * s + e) t
    unfold intOf at this
    rw [this]
    exact Int.mod_modEq _ _⟩

end Fhe.Secrecy
