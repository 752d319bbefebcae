import Verif.Witness.Scene
import Verif.Props.AnswersMore
import Verif.Props.Laws
import Verif.Props.Interchange
import Verif.Props.BfvRgsw
import Verif.Props.InPlace
import Verif.Props.HashOrder
/-!
# The theorems about encryption, evaluation and their laws, applied to a concrete scene
-/
namespace Fhe.Props
open Nega Poly ParamsBuilder Ciphertext

variable (S : Scene)

theorem Scene.count : S.par.moduli.length = 3 := by rw [S.hm]; rfl
theorem Scene.few : S.par.moduli.length ≤ 31 := by rw [S.count]; decide
theorem Scene.some32 : S.par.moduli.length ≤ 2 ^ 32 := by rw [S.count]; decide
theorem Scene.sum : S.par.moduli.sum ≤ 2 ^ 65 := by rw [S.hm]; decide
theorem Scene.below : S.par.plaintext.value ≤ S.par.modulusAt 0 := by rw [S.ht, S.h0]; decide
theorem Scene.levels : S.ct'.level = S.ct.level := by rw [S.enc.level_eq, S.enc'.level_eq]
theorem Scene.lengths : S.ct'.c.length = S.ct.c.length := by rw [S.parts, S.parts']
theorem Scene.belowAll : ∀ i < S.par.moduli.length, S.par.plaintext.value ≤ S.par.modulusAt i := fun i hi => by
  rw [S.count] at hi
  unfold BfvParameters.modulusAt
  rw [S.ht, S.hm]
  interval_cases i <;> decide
/-- A copy of the parameters at another address. -/
def Scene.other : Par := { S.par with addr := S.par.addr + 1 }
theorem Scene.other_ne : S.other.ptrEq S.par = false := by simp [Scene.other, Par.ptrEq]
/-- The first ciphertext with other flags: equal to it, but not the same. -/
def Scene.flipped : Ciphertext := { S.ct with c := S.ct.c.map fun p => { p with vt := !p.vt } }
theorem Scene.flippedUse : S.flipped.Usable S.par := (C75_flags S.use fun p => !p.vt).1
theorem Scene.flippedEq : S.ct.beq S.flipped = true := C75_equivalence.1.symm (C75_flags S.use fun p => !p.vt).2
theorem Scene.validPolys : ∀ p ∈ S.ct.c, p.Valid := fun p hp => (S.use.valid p hp).1
theorem Scene.pkUse : S.pk.c.Usable S.par := by
  obtain ⟨n, hw, -⟩ := build_inv luckyBuild_ok S.h
  exact S.pkEnc.usable hw

/-! ## Encryption and decryption -/

example := C37_roundtrip luckyBuild_ok S.h S.hrel S.hk exPrg_ok (by rw [S.ht, S.hvar, S.h0]; decide) S.hpt (seed := List.replicate 32 7) rfl exRng_ok
example := C37_public_encrypt_top luckyBuild_ok S.h S.pkPar S.pkEnc S.pkParts S.hs S.pkNoise S.below S.hpt exRng_ok exRng_ok exRng_ok
example := C38_zero luckyBuild_ok S.h S.enc S.pt S.hpt.par_eq

/-- The product of two ciphertexts decrypts to something, and a ciphertext of other parameters is refused. -/
example : (∃ pt m, S.sk.tryDecrypt luckyBuild S.prod = Res.ok pt ∧ pt.Holds S.par 0 m) ∧
    S.sk.tryDecrypt luckyBuild { S.ct with par := S.other } = Res.err (.parameterMismatch .ciphertext .parameters) := by
  obtain ⟨n, hw, -⟩ := build_inv luckyBuild_ok S.h
  refine ⟨?_, (C48_decrypt luckyBuild_ok S.h S.few S.sum S.hk _).1 _ (by unfold Ciphertext.validateFor; rw [if_pos S.other_ne])⟩
  have := (C48_decrypt luckyBuild_ok S.h S.few S.sum S.hk S.prod).2 S.prodUse.par_eq (S.prodUse.validateFor hw) (fun p hp => (S.prodUse.valid p hp).1) (by rw [S.prodEnc.level_eq]; exact S.below)
  rwa [S.prodEnc.level_eq] at this

/-! ## Evaluation keys, Galois keys, RGSW -/

example := C50_new (i := 2) (j := 1) luckyBuild_ok S.h S.hk.par_eq
example := C50_operations luckyBuild_ok S.h S.ekFor (fun _ => S.use.par_eq) S.validPolys
example := C42_rejects luckyBuild_ok S.h S.gkFor (fun _ => S.use.par_eq) S.validPolys
example := C45_encrypt_rejects (b := luckyBuild) exPrg (sk := S.sk) (pt := { S.pt with par := S.other }) (err := .parameterMismatch .plaintext .parameters)
  (by unfold Plaintext.validateFor; rw [S.hk.par_eq, if_pos S.other_ne]) [] [] (fun _ => exRng) (fun _ => exRng)

/-- The key of the relinearization key switches a polynomial with all coefficients 4, and refuses a polynomial of another level. -/
example : ∃ (F X : IntPoly S.par.degree) (E : List (IntPoly S.par.degree)) (p p' : Poly .powerBasis) (c : Context) (r : Poly .ntt × Poly .ntt), S.rk.ksk.Switches S.par S.s F E ∧ p.IsMod S.rk.ksk.ctxCiphertext X ∧
    S.rk.ksk.keySwitch p = Res.ok r ∧ S.par.contextAtLevel 1 = Res.ok c ∧ p'.ctx = c ∧ S.rk.ksk.keySwitch p' = Res.err (.parameterMismatch .polynomial .keySwitchingKey) ∧
    KeySwitchingKey.new luckyBuild exPrg S.sk p' 0 0 (List.replicate 32 3) (fun _ => exRng) = Res.err (.parameterMismatch .polynomial .keySwitchingKey) ∧
    ∃ (k : KeySwitchingKey) (E : List (IntPoly S.par.degree)), KeySwitchingKey.new luckyBuild exPrg S.sk p 0 0 (List.replicate 32 3) (fun _ => exRng) = Res.ok k ∧ k.Switches S.par S.s X E := by
  obtain ⟨n, hw, -⟩ := build_inv luckyBuild_ok S.h
  obtain ⟨a1, a2, a3, E, a4, -⟩ := S.rkFor
  have hc0 : S.rk.ksk.ctxCiphertext = S.ctx := by have := a4.ctx; rw [a1, S.ctxAt, Res.ok_inj] at this; exact this.symm
  obtain ⟨c, hc, hnew, -⟩ := (C31_levels luckyBuild_ok S.h 1).1 (by rw [S.count]; decide)
  obtain ⟨n', h8, hwf, hmod⟩ := Context.new_inv luckyBuild_ok S.ctxNew
  obtain ⟨_, -, -, hmod'⟩ := Context.new_inv luckyBuild_ok hnew
  have hne : c ≠ S.ctx := fun e => by
    rw [e, hmod, S.hm] at hmod'
    exact absurd hmod' (by decide)
  have hdeg : S.ctx.degree = S.par.degree := by rw [S.hd]; rw [hwf.level.degree, h8]
  have hp : (encI S.ctx .powerBasis false (fun _ => 4 : IntPoly S.par.degree)).IsMod S.ctx (fun _ => 4 : IntPoly S.par.degree) := isMod_encI hwf hdeg _
  have hp' := hp
  rw [← hc0] at hp'
  obtain ⟨c0, c1, _, _, _, _, q, -⟩ := C40_key_switch luckyBuild_ok S.h a4 hp'
  refine ⟨_, _, E, _, Poly.zero .powerBasis c, c, _, a4, hp', q, hc, rfl, (C40_mismatch (by rw [hc0]; exact hne) c0 c1).1,
    C40_new_mismatch (by rw [S.hk.par_eq]; exact S.ctxAt) (by rw [S.hk.par_eq]; exact S.ctxAt) hne _ _, ?_⟩
  obtain ⟨k, E, k1, k2, -⟩ := C40_new (i := 0) (j := 0) luckyBuild_ok S.h S.hk exPrg_ok (by rw [S.count]; decide) (by rw [S.count]; decide) (fun _ => rfl) S.ctxAt hp (List.replicate 32 3) (rngs := fun _ => exRng)
    fun _ => exRng_ok
  exact ⟨k, E, hc0 ▸ k1, k2⟩

/-! ## Laws -/

example := C68_add luckyBuild_ok S.h S.use S.use' S.use' S.levels S.levels S.lengths S.lengths
example := C68_sub luckyBuild_ok S.h S.use S.use' S.levels S.lengths
example := C68_mul_plain luckyBuild_ok S.h S.use S.use' S.levels S.lengths (by rw [S.enc.level_eq]; exact S.hpt) (by rw [S.enc.level_eq]; exact S.hpt')
example := C68_congr luckyBuild_ok S.h S.few S.sum S.use S.use' S.flippedUse S.flippedEq S.levels

/-! ## Interchange -/

theorem Scene.ptEq : S.pt.beq S.pt = true := (C75_plaintexts luckyBuild_ok S.h S.hpt S.hpt).1.2 ⟨rfl, rfl, fun e e' h h' => by rw [h] at h'; exact Option.some.inj h'⟩

example := C75_plain luckyBuild_ok S.h S.use S.flippedUse S.flippedEq S.hpt S.hpt S.ptEq S.below
example := C75_switch luckyBuild_ok S.h S.use S.flippedUse S.flippedEq 2
/-- An evaluation key that was written and read again does the same as the one that was written. -/
example : ∃ msg k', S.ek.toMsg = some msg ∧ EvaluationKey.fromMsg luckyBuild exPrg msg S.par = Res.ok k' ∧ Res.Same (fun r r' => r.beq r' = true) (k'.computesInnerSum S.ct) (S.ek.computesInnerSum S.flipped) := by
  obtain ⟨msg, k', h1, h2, h3, h4⟩ := (C75_roundtrip luckyBuild_ok S.h S.some32).2.1 S.ek S.ekWf
  exact ⟨msg, k', h1, h2, (C75_evaluation_key luckyBuild_ok S.h S.use S.flippedUse S.flippedEq h3 S.ekWf h4).2.2.1⟩
example := C75_external_product luckyBuild_ok S.h S.use S.flippedUse S.flippedEq S.rgWf S.rgWf (C75_equivalence.2.2.2.2.refl _)
example := C75_multiplicator luckyBuild_ok S.h S.few S.sum S.use S.flippedUse S.flippedEq S.use' S.use' (C75_equivalence.1.refl _) S.rkWf S.rkWf (C75_equivalence.2.2.1.refl _)
example := C75_dot_product luckyBuild_ok S.h (cts := [S.ct, S.ct']) (cts' := [S.flipped, S.ct']) (pts := [S.pt, S.pt]) (pts' := [S.pt, S.pt])
  (.cons ⟨S.use, S.flippedUse, S.flippedEq⟩ (.cons ⟨S.use', S.use', C75_equivalence.1.refl _⟩ .nil))
  (.cons ⟨⟨_, _, S.hpt⟩, ⟨_, _, S.hpt⟩, S.ptEq⟩ (.cons ⟨⟨_, _, S.hpt⟩, ⟨_, _, S.hpt⟩, S.ptEq⟩ .nil))
example := (C75_encrypt luckyBuild_ok S.h S.hpt S.hpt S.ptEq S.below).2 S.pk S.pk S.pkPar S.pkPar S.pkUse S.pkUse (C75_equivalence.2.1.refl _) exRng exRng exRng exRng_ok exRng_ok exRng_ok

/-! ## Refusals -/

/-- The evaluation key rotates by three columns and not by one. -/
example : (∃ r, S.ek.rotatesColumnsBy S.ct 3 = Res.ok r) ∧ (S.ek.supportsColumnRotationBy 9 = false → S.ek.rotatesColumnsBy S.ct 9 = Res.err (.unsupported (.columnRotation 9))) ∧
    S.ek.rotatesRows S.prod = Res.err (.invalidPolynomialCount .evaluationKey 3 2) := by
  have hp : ¬ S.ct.par.ptrEq S.par = false := by rw [S.use.par_eq, ptrEq_self]; simp
  have h3 := (C93_evaluate luckyBuild_ok S.h S.ekFor (.inl S.use)).2.1 3
  have h9 := (C93_evaluate luckyBuild_ok S.h S.ekFor (.inl S.use)).2.1 9
  have hr := (C93_evaluate luckyBuild_ok S.h S.ekFor (.inl S.prodUse)).1
  have hl := S.enc.level_eq
  refine ⟨?_, ?_, ?_⟩
  · exact (((h3.2 hp).2 (by rw [S.parts]; simp)).2 (by rw [hl]; simp)).2 (by rw [S.ekCol]; simp)
  · exact (((h9.2 hp).2 (by rw [S.parts]; simp)).2 (by rw [hl]; simp)).1
  · have := (hr.2 (by rw [S.prodUse.par_eq, ptrEq_self]; simp)).1 (by rw [S.prodParts]; decide)
    rwa [S.prodParts] at this

example := C93_multiply luckyBuild_ok S.h S.few S.sum S.rkFor S.mpMade (.inl S.use) (.inl S.use')
example := C93_crypt luckyBuild_ok S.h S.few S.sum S.belowAll S.hk (.inl S.prodUse) exPrg_ok (pt := S.pt) (.inl ⟨_, _, S.hpt⟩) (seed := List.replicate 32 7) rfl exRng_ok exRng_ok exRng_ok exRng_ok exRng_ok
  (pk := S.pk) (.inr ⟨_, rfl, S.pkMade⟩)
example := (C93_evaluation_key luckyBuild_ok S.h S.hk.par_eq 0 0).2 S.ebd S.ekNew sceneRequests S.ebd' S.ekReq
example := C93_shares luckyBuild_ok S.h S.hk (.inl ⟨_, S.hk⟩) (.inl S.use) (pk := S.pk) (.inl ⟨S.pkPar, S.pkUse, S.pkEnc.level_eq, S.pkParts⟩) [S.crp, S.crp, S.crp] exRng_ok exRng_ok exRng_ok exRng_ok
example := (C93_encode luckyBuild_ok S.h ⟨.poly, 1⟩ (S.belowAll _)).1 [1, 2, 16] (by rw [S.ht]; decide)
example := C93_decode luckyBuild_ok S.h S.hpt (some ⟨.poly, 0⟩)
example := C93_new luckyBuild_ok S.h S.crp.poly [S.crp.poly]

/-! ## The order of hash tables -/

/-- The evaluation key with its table in the opposite order. -/
theorem Scene.reversed : S.ek.SameTables { S.ek with gk := S.ek.gk.reverse } := ⟨rfl, rfl, rfl, List.reverse_perm _, .refl _, rfl⟩

example := C94_operations luckyBuild_ok S.h S.ekWf S.reversed
example := C94_equal luckyBuild_ok S.h S.ekWf S.reversed S.ek
/-- Whatever the order of the set of exponents, the same key is built. -/
example : ∃ set k', S.ebd'.indices = Res.ok set ∧ EvaluationKeyBuilder.buildIn set.reverse luckyBuild exPrg S.ebd' (fun _ => List.replicate 32 3) (fun _ _ => exRng) = Res.ok k' ∧ S.ek.SameTables k' := by
  have hb := S.ekMade
  unfold EvaluationKeyBuilder.build at hb
  obtain ⟨set, hi, -⟩ := Res.bind_eq_ok.1 hb
  obtain ⟨k', h1, h2⟩ := C94_build hi (List.reverse_perm set) S.ekMade
  exact ⟨set, k', hi, h1, h2⟩
example := C94_defaults (b := luckyBuild) (List.reverse_perm defaultTable) 20

/-! ## Operations that change a value in place -/

example := C81_agree S.crp.poly S.ct S.ct' S.pt S.rk 2
example := (C81_relinearize (g := exPrg) S.crp.poly S.rk S.prod).2 luckyBuild_ok S.h exPrg_ok

end Fhe.Props
