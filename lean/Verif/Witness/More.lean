import Verif.Witness.Rest
import Verif.Props.Agree
import Verif.Props.BfvDot
import Verif.Props.Sizes
import Verif.Props.Portable
import Verif.Props.Reasons
/-!
# More of the theorems, applied to a concrete scene
-/
namespace Fhe.Props
open Nega Poly ParamsBuilder Ciphertext

variable (S : Scene)

/-! ## Parameters and encodings -/

example := C31_no_panic luckyBuild_ok luckyBuild_lucky exBuilder (by decide) (by decide)
example (m m' : Nega 8 (ZMod 17)) (i : Nat) := C34_slotwise (N := 8) (t := 17) (ζ := 3) (by decide) ⟨3, by norm_num, rfl⟩ m m' i
example : ∃ pt, S.sk.tryDecrypt luckyBuild S.ct = Res.ok pt ∧ pt.decodeBigUint (some ⟨.poly, 0⟩) = Res.ok [1, 2, 16, 0, 0, 0, 0, 0] ∧ pt.decodeU64 (some ⟨.poly, 0⟩) = Res.ok [1, 2, 16, 0, 0, 0, 0, 0] := by
  obtain ⟨pt, h1, h2, h3⟩ := C37_decrypt luckyBuild_ok S.h S.hrel S.hk S.enc S.small
  obtain ⟨h4, h5⟩ := C35_decode luckyBuild_ok S.h (lv := 0) h2 (Or.inl h3)
  rw [S.em] at h4 h5
  exact ⟨pt, h1, h4, h5.trans (if_pos (by decide))⟩

/-! ## Operations -/

example := C38_add luckyBuild_ok S.h S.enc S.enc' (by rw [S.parts, S.parts'])
example := C38_neg luckyBuild_ok S.h S.enc
example : S.ct.mul { S.ct' with par := S.other, level := 1 } = none :=
  C39_mismatch (fun h => by have := S.parts; rw [h] at this; simp at this) (Or.inr (by rw [S.enc.level_eq]; simp)) (by
    have := S.enc.level_eq
    simp [Ciphertext.beq, this])
example : ∃ r, S.rk.relinearizes S.prod = Res.ok r ∧ r.seed = S.prod.seed := by
  obtain ⟨r, -, h1, -⟩ := C41_relinearize luckyBuild_ok S.h S.rkFor S.prodEnc S.prodParts
  exact ⟨r, h1, C41_seed h1⟩
example := C41_rejects luckyBuild_ok S.h S.rkFor (ct := S.prod) (fun _ => S.prodUse.par_eq) fun p hp => (S.prodUse.valid p hp).1
example := C45_product luckyBuild_ok S.h S.rgEnc S.enc S.parts
example := C45_panics luckyBuild_ok S.h S.rgEnc (ct := S.ct) fun p hp => by rw [S.use.par_eq]; exact S.use.valid p hp
example : ∃ r, S.ct.neg = some r ∧ r.WellFormed exPrg S.par := by
  obtain ⟨r, h1, h2, -, h3⟩ := C38_neg luckyBuild_ok S.h S.enc
  exact ⟨r, h1, C47_wellFormed luckyBuild_ok S.h h2 h3⟩
example := C49_naive luckyBuild_ok S.h (i := 0) (L := 2) (cts := [S.ct, S.ct']) (pts := [S.pt, S.pt']) (by simp) rfl le_rfl (by
  intro ct h
  have key : ∀ ct : Ciphertext, ct.Usable S.par → ct.level = 0 → ∀ p ∈ ct.c, S.par.contextAtLevel 0 = Res.ok p.ctx ∧ p.Valid := fun ct hu hl p hp => by
    have := hu.valid p hp
    rw [hl] at this
    exact ⟨this.2, this.1⟩
  simp only [List.mem_cons, List.not_mem_nil, or_false] at h
  rcases h with rfl | rfl
  · exact ⟨S.use.par_eq, S.enc.level_eq, S.parts, key _ S.use S.enc.level_eq⟩
  · exact ⟨S.use'.par_eq, S.enc'.level_eq, S.parts', key _ S.use' S.enc'.level_eq⟩) (by
  intro pt h
  simp only [List.mem_cons, List.not_mem_nil, or_false] at h
  rcases h with rfl | rfl
  · exact ⟨S.hpt.par_eq, S.hpt.ctx, S.hpt.valid⟩
  · exact ⟨S.hpt'.par_eq, S.hpt'.ctx, S.hpt'.valid⟩)
example := C86_default luckyBuild_ok S.h S.few S.sum S.rkWf (by rw [S.rkFor.level]; simp) S.mpMade S.use S.use' (by rw [S.enc.level_eq, S.rkFor.level]) (by rw [S.enc'.level_eq, S.rkFor.level]) S.parts S.parts'
example := C92_any_noise luckyBuild_ok S.h S.hrel S.hk (by rw [S.h0]) (by rw [S.h0]; decide) S.enc

/-! ## Any input -/

example := C67_switch luckyBuild_ok S.h S.use
example := C67_decrypt luckyBuild_ok S.h S.few S.sum S.hk S.use (by rw [S.enc.level_eq]; exact S.below)
example := C67_dot luckyBuild_ok S.h (cts := [S.ct, S.ct']) (pts := [S.pt, S.pt']) (by
  intro ct h
  simp only [List.mem_cons, List.not_mem_nil, or_false] at h
  rcases h with rfl | rfl
  · exact S.use
  · exact S.use') (by
  intro pt h
  simp only [List.mem_cons, List.not_mem_nil, or_false] at h
  rcases h with rfl | rfl
  · exact ⟨_, _, S.hpt⟩
  · exact ⟨_, _, S.hpt'⟩)
example := C67_operators luckyBuild_ok S.h S.few S.sum S.use S.use'
example := C79_ciphertext luckyBuild_ok S.h S.some32 S.wf
example := C79_relinearization luckyBuild_ok S.h S.some32 S.rkWf
example := C79_evaluation luckyBuild_ok S.h S.some32 S.ekWf

/-! ## Shares -/

example := C53_public_rejects (ct := { S.ct with par := { S.par with variance := 2 } }) (sk := S.sk) (pk := S.pk) exRng exRng exRng
example : PublicKeySwitchShare.new S.sk S.pk { S.ct with par := { S.par with variance := 2 } } exRng exRng exRng = Res.err (.parameterMismatch .publicKey .ciphertext) :=
  (C53_public_rejects exRng exRng exRng).2 (by rw [S.hk.par_eq, S.pkPar]) (by
    rw [S.pkPar]
    intro h
    have := congrArg BfvParameters.variance h
    rw [S.hvar] at this
    simp at this)

/-- Two parties that chose the same key. -/
example (ct : Ciphertext) (v : IntPoly S.par.degree) (hct : ct.Encrypts S.par (∑ _k : Fin 2, S.s) 0 S.m v) (h2 : ct.c.length = 2) (hv : v.Bounded 51) :=
  C53_decrypt luckyBuild_ok S.h S.few S.sum (by rw [S.ht, S.h0]; decide) (K := 2) (by decide) (sk := fun _ => S.sk) (fun _ => S.hk) hct h2 hv (by rw [S.ht, S.hvar, S.h0]; decide) (rng := fun _ => exRng)
    fun _ => exRng_ok
/-- One party alone. -/
example : ∃ (share : DecryptionShare) (pt : Plaintext), DecryptionShare.new S.sk S.ct exRng = Res.ok share ∧ DecryptionShare.aggregate [share] = Res.ok pt ∧ pt.Holds S.par 0 S.m := by
  obtain ⟨share, pt, h1, h2, h3, -⟩ := C53_decrypt luckyBuild_ok S.h S.few S.sum (by rw [S.ht, S.h0]; decide) (K := 1) (by decide) (sk := fun _ => S.sk) (s := fun _ => S.s) (fun _ => S.hk)
    (by simpa using S.enc) S.parts S.noise (by rw [S.ht, S.hvar, S.h0]; decide) (rng := fun _ => exRng) fun _ => exRng_ok
  exact ⟨share 0, pt, h1 0, by simpa using h2 1, h3⟩

/-! ## Bytes that are received -/

example := C47_total luckyBuild_ok S.h exPrg_ok (m := ⟨[[1, 2, 3], []], [7], 1⟩) (by unfold CiphertextMsg.OK IsBytes; decide)
example := C62_ciphertext_any luckyBuild_ok S.h exPrg_ok (bytes := [10, 3, 1, 2, 3]) (by unfold IsBytes; decide)
example := C62_public_key_any luckyBuild_ok S.h exPrg_ok (bytes := [10, 3, 1, 2, 3]) (by unfold IsBytes; decide)
example := C62_relin_any luckyBuild_ok S.h exPrg_ok (bytes := [10, 3, 1, 2, 3]) (by unfold IsBytes; decide)
example := C62_evaluation_any luckyBuild_ok S.h exPrg_ok (bytes := [10, 3, 1, 2, 3]) (by unfold IsBytes; decide)
example := C62_rgsw_any luckyBuild_ok S.h exPrg_ok (bytes := [10, 3, 1, 2, 3]) (by unfold IsBytes; decide)
example := C67_read luckyBuild_ok S.h exPrg_ok (bytes := [10, 3, 1, 2, 3]) (by unfold IsBytes; decide)

/-- The keys of the scene, sent and received. -/
theorem Scene.received : (∃ k : RelinearizationKey, k.Received exPrg S.par ∧ k.IsFor S.par S.s 0 0 (2 * S.par.variance)) ∧ (∃ pk : PublicKey, pk.Received exPrg S.par ∧ pk.c.beq S.pk.c = true) := by
  have hsd : ∀ x, IsBytes (List.replicate 32 (x % 256)) := fun x y hy => by rw [(List.mem_replicate.1 hy).2]; exact Nat.mod_lt _ (by decide)
  obtain ⟨n, hw, -⟩ := build_inv luckyBuild_ok S.h
  constructor
  · obtain ⟨k0, g1, g2, g3, -⟩ := RelinearizationKey.newLeveled_eq (i := 0) (j := 0) hw S.n64 S.hk exPrg_ok (by rw [S.count]; decide) le_rfl (by rw [S.count]; decide) (List.replicate 32 3)
      (rngs := fun _ => exRng) fun _ => exRng_ok
    rw [S.rkMade, Res.ok_inj] at g1
    subst g1
    obtain ⟨bytes, k, -, k2, k3, -, -, -, k4⟩ := C62_relin luckyBuild_ok S.h S.n1024 S.rkWf
    have hk := k4 _ _ _ _ S.rkFor
    refine ⟨k, (C67_received luckyBuild_ok S.h exPrg_ok (k2 fun seed hs => ?_)).1 k k3 (by rw [show k.ksk.ciphertextLevel = 0 from hk.level, S.count]; decide), hk⟩
    rw [g3, Option.some_inj] at hs
    rw [← hs]
    exact hsd 3
  · obtain ⟨bytes, pk, -, k2, k3, -, k4⟩ := C62_public_key luckyBuild_ok S.h S.n1024 S.pkPar S.pkWf S.pkEnc.level_eq S.pkParts
    refine ⟨pk, ⟨bytes, k2 fun seed hs => ?_, k3⟩, k4⟩
    obtain ⟨pk', _, g1, -, -, -, -, g2, -⟩ := C37_public_key luckyBuild_ok S.h S.hk exPrg_ok (seed := List.replicate 32 1) rfl exRng_ok
    rw [S.pkMade, Option.some_inj] at g1
    subst g1
    rw [g2, Option.some_inj] at hs
    rw [← hs]
    exact hsd 1

example : ∃ k : RelinearizationKey, k.Received exPrg S.par ∧ k.relinearizes S.prod ≠ Res.panic ∧ ∃ mp, Multiplicator.default luckyBuild k = Res.ok mp ∧ mp.multiply S.ct S.ct' ≠ Res.panic := by
  obtain ⟨k, hk, -⟩ := S.received.1
  obtain ⟨h1, h2⟩ := C67_multiply luckyBuild_ok S.h exPrg_ok S.few S.sum hk
  obtain ⟨mp, h3⟩ := h1 luckyBuild_lucky
  exact ⟨k, hk, (C67_relinearize luckyBuild_ok S.h exPrg_ok hk S.prodUse).1, mp, h3, ((h2 mp h3).2 S.use S.use').1.1⟩
example : ∃ pk : PublicKey, pk.Received exPrg S.par ∧ ∃ r, pk.tryEncrypt S.pt exRng exRng exRng = Res.ok r ∧ r.Usable S.par := by
  obtain ⟨pk, hpk, -⟩ := S.received.2
  obtain ⟨r, h1, h2, -⟩ := C67_encrypt luckyBuild_ok S.h exPrg_ok hpk S.below S.hpt exRng_ok exRng_ok exRng_ok
  exact ⟨pk, hpk, r, h1, h2⟩

/-! ## The layers below -/

example := C09_generate_prime (bits := 20) (m := 32) (ub := 2 ^ 20) (by decide) (by decide) (by decide) (by decide) (by decide)
example := C58_random luckyBuild_ok S.ctxNew .ntt [List.replicate 8 96, List.replicate 8 112, List.replicate 8 5] rfl (by decide) (by
  intro i q row h1 h2
  rcases i with _ | _ | _ | i <;> simp at h1 h2 <;> subst h1 <;> rw [← h2] <;> decide)
example : ∃ crp, CommonRandomPoly.newLeveled S.par 0 [List.replicate 8 96, List.replicate 8 112, List.replicate 8 5] = Res.ok crp ∧ crp.poly.Valid := by
  obtain ⟨h1, h2⟩ : S.ctx.moduli = [97, 113, 193] ∧ S.ctx.degree = 8 := by
    obtain ⟨n, hw, -⟩ := build_inv luckyBuild_ok S.h
    obtain ⟨l, hl, e⟩ := ParWF.contextAtLevel_iff.1 S.ctxAt
    have ha := AtLevel.ofGet hw hl
    exact ⟨by rw [← e, ha.moduli, S.hm]; rfl, by rw [← e, ha.deg, S.hd]⟩
  obtain ⟨crp, h3, -, h4, -⟩ := C51_crp luckyBuild_ok S.h S.ctxAt (rows := [List.replicate 8 96, List.replicate 8 112, List.replicate 8 5]) (by rw [h1]; rfl) (by
    intro i q row g1 g2
    rw [h1] at g1
    rw [h2]
    rcases i with _ | _ | _ | i <;> simp at g1 g2 <;> subst g1 <;> rw [← g2] <;> decide)
  exact ⟨crp, h3, h4⟩
example : ∃ e, build luckyBuild { exBuilder with plaintext := 1 } = Res.err e ∧ Reason { exBuilder with plaintext := 1 } e := by
  obtain ⟨e, h⟩ := C31_rejects (b := luckyBuild) { exBuilder with plaintext := 1 } (by right; right; right; right; left; decide)
  exact ⟨e, h, C90_reason luckyBuild_ok luckyBuild_lucky (by decide) (by decide) h⟩

/-! ## Multiplication by steps -/

/-- A strategy that scales the second factor, made for the scene: it accepts exactly the ciphertexts it should, and the further steps can be enabled. -/
example : ∃ (σ : MulStrategy) (mp mp1 mp2 : Multiplicator) (r1 : Ciphertext), σ.make luckyBuild 0 S.par = Res.ok mp ∧ mp.multiply S.prod S.ct ≠ Res.panic ∧ (¬ ∃ r, mp.multiply S.prod S.ct = Res.ok r) ∧
    mp.enableRelinearization S.rk = Res.ok mp1 ∧ mp1.enableModSwitching = Res.ok mp2 ∧ mp1.multiply S.ct S.ct' = Res.ok r1 ∧ mp2.multiply S.ct S.ct' = r1.switchDown := by
  have hb := luckyBuild_ok
  obtain ⟨n, hw, -⟩ := build_inv hb S.h
  obtain ⟨-, -, -, hmod'⟩ := Context.new_inv hb S.ctxNew
  have hsup : Supported luckyBuild [97, 113, 193, 241, 257, 337] 3 := by
    refine supported_sub luckyBuild_lucky (le_refl _) (by decide) (by decide) ?_
    intro q hq
    simp only [List.mem_cons, List.not_mem_nil, or_false] at hq
    rcases hq with rfl | rfl | rfl | rfl | rfl | rfl <;> norm_num
  obtain ⟨mc, hmc, hmm, -⟩ := Context.new_ok hb hsup
  have hmc' : Context.new luckyBuild [97, 113, 193, 241, 257, 337] S.par.degree = some (.ok mc) := by rw [S.hd]; exact hmc
  obtain ⟨mp, k1, k2⟩ := C39_strategy_new (σ := ⟨1, 1, 241 * 257 * 337, 2115473, 17, 241 * 257 * 337, [97, 113, 193, 241, 257, 337]⟩) hb S.h (i := 0) (by rw [S.count]; decide) (by rw [S.count]; decide) hmc'
    (by decide) (by decide) (by decide) (by decide)
  have hs : MulStrategy.Sound ⟨1, 1, 241 * 257 * 337, 2115473, 17, 241 * 257 * 337, [97, 113, 193, 241, 257, 337]⟩ S.par 0 S.ctx mp.mulCtx := by
    refine ⟨by decide, by decide, by decide, by rw [S.h0, S.ht]; norm_num, by rw [hmod']; decide, by decide, (scalerRoom_le _ _ _ _).trans (by rw [hmod']; decide), (scalerRoom_le _ _ _ _).trans (by rw [hmod']; decide),
      (scalerRoom_le _ _ _ _).trans (by rw [k2, hmm]; decide), Or.inr ?_⟩
    rw [S.h0]
    exact ⟨17, by norm_num⟩
  obtain ⟨l, hl, e⟩ := ParWF.contextAtLevel_iff.1 S.ctxAt
  have ha := AtLevel.ofGet hw hl
  rw [← e] at hs
  obtain ⟨hf, hrk, hms, -⟩ := MulStrategy.make_inv hw ha k1 hs
  rw [e] at hs
  obtain ⟨r, v'', _, _, _, _, _, _, _, g1, g2, g3, -⟩ := C39_strategy hb S.h S.ctxAt k1 hs S.enc S.enc' S.parts S.parts'
  obtain ⟨g9, g4, g5, -⟩ := C39_enable (rk := S.rk) hb S.h S.ctxAt (mp := mp) ⟨hf.par_eq, hf.base.trans e⟩
  obtain ⟨mp1, g6⟩ := g4.2 S.rkFor.level
  obtain ⟨r1, -, g7, -⟩ := C41_relinearize hb S.h S.rkFor g2 g3
  have g10 : mp1 = { mp with rk := some S.rk } := by
    rcases g9 with g9 | ⟨_, g9⟩
    · rw [g6, Res.ok_inj] at g9; exact g9
    · rw [g6] at g9; exact absurd g9.symm Res.err_ne_ok
  obtain ⟨-, -, g8, -⟩ := C39_enable (rk := S.rk) hb S.h S.ctxAt (mp := mp1) (by rw [g10]; exact ⟨hf.par_eq, hf.base.trans e⟩)
  obtain ⟨h1, h2, -⟩ := C39_steps hrk hms g1 g6 g7 (g8 (by rw [S.count]; decide)) (g5 (by rw [S.count]; decide))
  obtain ⟨h3, h4⟩ := C39_strategy_rejects hb S.h S.ctxAt k1 hs (ct := S.prod) (ct' := S.ct) (fun _ => S.prodUse.par_eq) (fun _ => S.use.par_eq) (fun p hp => (S.prodUse.valid p hp).1) S.validPolys
  exact ⟨_, mp, mp1, _, r1, k1, h3, fun h => by have := (h4.1 h).2.2.2.2.1; rw [S.prodParts] at this; exact absurd this (by decide), g6, g8 (by rw [S.count]; decide), h1, h2⟩

end Fhe.Props
