import Verif.Witness.Scheme
import Verif.Props.Sizes
import Verif.Props.Identify
import Verif.Props.Portable
import Verif.Props.Wire
import Verif.Props.Permission
import Verif.Props.PermissionParties
import Verif.Props.Shares
import Verif.Props.Moves
import Verif.Props.Unreduced
import Verif.Props.Sampling
import Verif.Props.Memory
/-!
# The theorems about bytes, flags, shares and movements of slots, applied to a concrete scene
-/
namespace Fhe.Props
open Nega Poly ParamsBuilder Ciphertext

variable (S : Scene)

theorem Scene.n64 : S.par.moduli.length ≤ 64 := by rw [S.count]; decide
theorem Scene.n1024 : S.par.moduli.length ≤ 1024 := by rw [S.count]; decide

/-! ## Reading -/

example := C47_rejects (g := exPrg) luckyBuild_ok S.h
example : PublicKey.fromMsg exPrg none S.par = Res.err .missingField ∧ ∃ msg pk', S.pk.toMsg = some msg ∧ PublicKey.fromMsg exPrg msg S.par = Res.ok pk' ∧ pk'.c.beq S.pk.c = true := by
  obtain ⟨msg, pk', h1, h2, -, h3⟩ := (C55_public_key luckyBuild_ok S.h S.some32).1 S.pk S.pkPar S.pkWf S.pkEnc.level_eq
  exact ⟨(C55_public_key (g := exPrg) luckyBuild_ok S.h S.some32).2.1, msg, pk', h1, h2, h3⟩
example := C55_relin_rejects (g := exPrg) luckyBuild_ok S.h
example := C55_nested (g := exPrg) luckyBuild_ok S.h
example := C62_empty (g := exPrg) luckyBuild_ok S.h
example := C62_public_key luckyBuild_ok S.h S.n1024 S.pkPar S.pkWf S.pkEnc.level_eq S.pkParts
example := C62_secret_key_any S.par (bytes := [10, 3, 1, 2, 3]) (by unfold IsBytes; decide)
example := (C62_parameters_any luckyBuild_ok S.par.toBytes).2 luckyBuild_lucky

/-! ## Sizes -/

example := C79_encrypt_public luckyBuild_ok S.h S.some32 S.hk exPrg_ok S.below (seed := List.replicate 32 1) rfl exRng_ok S.hpt exRng_ok exRng_ok exRng_ok
example := C79_public_key luckyBuild_ok S.h S.some32 S.hk exPrg_ok (seed := List.replicate 32 1) rfl exRng_ok
example := C79_evaluation_generated (i := 0) (j := 0) luckyBuild_ok S.h S.n64 S.hk exPrg_ok (by rw [S.count]; decide) le_rfl sceneRequests (seeds := fun _ => List.replicate 32 3) (fun _ => rfl)
  (rngs := fun _ _ => exRng) (fun _ _ => exRng_ok)
/-- Requests in another order ask for the same keys. -/
example := C79_evaluation_same (i := 0) (j := 0) luckyBuild_ok S.h S.n64 S.hk S.hk exPrg_ok (by rw [S.count]; decide) le_rfl (rs := [.columns 3, .columns 1]) (rs' := [.columns 1, .columns 3])
  (fun x => by
    have e : ∀ t, (t = 3 ∨ t = 1) ↔ (t = 1 ∨ t = 3) := fun t => or_comm
    simp [Requested, lastExpansion, e]) (seeds := fun _ => List.replicate 32 3) (seeds' := fun _ => List.replicate 32 4) (fun _ => rfl) (fun _ => rfl)
  (rngs := fun _ _ => exRng) (rngs' := fun _ _ => exRng) (fun _ _ => exRng_ok) (fun _ _ => exRng_ok)
example := C79_rgsw luckyBuild_ok S.h S.some32 S.rgWf
example := C79_rgsw_generated luckyBuild_ok S.h S.some32 S.hk exPrg_ok S.hpt (seed0 := List.replicate 32 3) (seed1 := List.replicate 32 4) rfl rfl (rngs0 := fun _ => exRng) (rngs1 := fun _ => exRng) (fun _ => exRng_ok)
  (fun _ => exRng_ok)
example := C79_secret_key_count luckyBuild_ok S.h exRng_ok
example := C79_secret_key luckyBuild_ok S.h (by rw [S.hvar]; decide) exRng_ok

/-! ## Different values are written as different bytes -/

example := C82_relin luckyBuild_ok S.h S.n1024 S.rkWf S.rkWf
example := C82_evaluation luckyBuild_ok S.h S.n1024 S.ekWf S.ekWf
example := C82_rgsw luckyBuild_ok S.h S.n1024 S.rgWf S.rgWf
example := C82_public_key luckyBuild_ok S.h S.n1024 ⟨S.pkPar, S.pkWf, S.pkEnc.level_eq, S.pkParts⟩ ⟨S.pkPar, S.pkWf, S.pkEnc.level_eq, S.pkParts⟩

/-! ## Permission to compute in variable time -/

theorem Scene.flags : S.ct.flags = [true, true] := C87_fresh (b := luckyBuild) (x := S.ct) (pk := S.pk) (r0 := exRng) (r1 := exRng) (r2 := exRng) |>.1 S.made
theorem Scene.flags' : S.ct'.flags = [true, true] := C87_fresh (b := luckyBuild) (x := S.ct) (pk := S.pk) (r0 := exRng) (r1 := exRng) (r2 := exRng) |>.1 S.made'

/-- All the keys of the scene permit it, so what they make of a fresh ciphertext does; a product whose right operand is equal to the left one follows the left one. -/
example : S.rk.ksk.permits = true ∧ S.gk.ksk.permits = true ∧ S.ek.Permits ∧ S.rg.ksk0.permits = true := by
  refine ⟨?_, ?_, ?_, ?_⟩
  · exact (C87_keys (pt := S.pt') (seed' := List.replicate 32 4) (rngs' := fun _ => exRng) (gk := S.gk) (e := 3) (ek := S.ek) (w := S.rg) (s := S.ebd') (seeds := fun _ => List.replicate 32 3) (rs := fun _ _ => exRng)).1 S.rkMade
  · exact (C87_keys (pt := S.pt') (seed' := List.replicate 32 4) (rngs' := fun _ => exRng) (k := S.rk) (ek := S.ek) (w := S.rg) (s := S.ebd') (seeds := fun _ => List.replicate 32 3) (rs := fun _ _ => exRng)).2.1 S.gkMade
  · exact (C87_keys (sk := S.sk) (i := 0) (j := 0) (e := 3) (pt := S.pt') (seed := List.replicate 32 3) (seed' := List.replicate 32 4) (rngs := fun _ => exRng) (rngs' := fun _ => exRng) (k := S.rk) (gk := S.gk) (w := S.rg)).2.2.1 S.ekMade
  · exact ((C87_keys (i := 0) (j := 0) (e := 3) (k := S.rk) (gk := S.gk) (ek := S.ek) (s := S.ebd') (seeds := fun _ => List.replicate 32 3) (rs := fun _ _ => exRng)).2.2.2 S.rgMade).1

theorem Scene.nonempty : S.ct.c ≠ [] := fun e => by have := S.parts; rw [e] at this; cases this
theorem Scene.nonempty' : S.ct'.c ≠ [] := fun e => by have := S.parts'; rw [e] at this; cases this
theorem Scene.ekPermits : S.ek.Permits :=
  (C87_keys (sk := S.sk) (i := 0) (j := 0) (e := 3) (pt := S.pt') (seed := List.replicate 32 3) (seed' := List.replicate 32 4) (rngs := fun _ => exRng) (rngs' := fun _ => exRng) (k := S.rk) (gk := S.gk) (w := S.rg)).2.2.1 S.ekMade

example (r : Ciphertext) (h : S.ct.add S.ct' = some r) : r.flags = [true, true] := by
  have := (C87_linear (x := S.ct) (y := S.ct') (r := r) (i := 0)).2.2.2.1 S.nonempty S.nonempty' h
  rwa [S.flags, S.flags'] at this
/-- The product of the scene is of different ciphertexts; the square of the first is the other case. -/
example : S.prod.permits = true ∧ ∃ r, S.ct.mul S.ct = some r ∧ r.flags = List.replicate 3 S.ct.permits := by
  constructor
  · by_cases he : S.ct'.beq S.ct = true
    · have := C87_mul_equal S.nonempty he S.prodMade
      rw [permits, this, permits, S.flags, S.parts]
      rfl
    · have := C87_mul S.nonempty (by simpa using he) S.prodMade
      rw [permits, this, permits, permits, S.flags, S.flags', S.parts, S.parts']
      rfl
  · obtain ⟨r, -, hr, -⟩ := C68_mul luckyBuild_ok S.h S.few S.sum S.use S.use rfl
    have := C87_mul_equal S.nonempty (C75_equivalence.1.refl _) hr
    rw [S.parts] at this
    exact ⟨r, hr, this⟩
example := C87_square luckyBuild_ok S.h S.few S.sum (x := S.prod) S.prodUse
example := fun r rs => C87_evaluation (r := r) (rs := rs) (i := 3) (size := 7) S.ekPermits S.flags
example : ∃ r, S.ct.mulRgsw S.rg = some r ∧ r.flags = List.replicate 2 (S.ct.permits && S.rg.ksk0.permits && S.rg.ksk1.permits) := by
  obtain ⟨r, _, h1, -⟩ := C45_bound luckyBuild_ok S.h S.rgEnc S.enc S.parts S.noise
  exact ⟨r, h1, C87_rgsw h1⟩
example : ∃ r, S.mp.multiply S.ct S.ct' = Res.ok r ∧ ∀ k, S.mp.rk = some k → r.flags = List.replicate 2 (S.ct.permits && S.ct'.permits && k.ksk.permits) := by
  obtain ⟨r, _, h1, -⟩ := (C39_default luckyBuild_ok S.h S.few S.sum S.rkFor).2 S.mp S.mpMade S.enc S.enc' S.parts S.parts' S.hs S.noise S.noise'
  exact ⟨r, h1, (C87_multiplicator S.flags S.flags' h1).2⟩
example : ∃ r, dotProductScalar [S.ct, S.ct'] [S.pt, S.pt'] = Res.ok r ∧ (S.pt.polyNtt.vt = true → S.pt'.polyNtt.vt = true → r.permits = true) := by
  have := (C93_dot luckyBuild_ok S.h (first := S.ct) (rest := [S.ct']) (pts := [S.pt, S.pt']) (fun _ => 0) S.use (fun c hc => by rw [List.mem_singleton.1 hc]; exact .inl S.use') (fun p hp => by
    simp only [List.mem_cons, List.not_mem_nil, or_false] at hp
    rcases hp with rfl | rfl
    · exact .inl ⟨_, S.hpt⟩
    · exact .inl ⟨_, S.hpt'⟩)).2
  have c1 : ¬ S.ct.par.ptrEq S.par = false := by rw [S.use.par_eq, ptrEq_self]; simp
  have c2 : ¬ S.ct'.par.ptrEq S.par = false := by rw [S.use'.par_eq, ptrEq_self]; simp
  have p1 : ¬ S.pt.par.ptrEq S.par = false := by rw [S.hpt.par_eq, ptrEq_self]; simp
  have p2 : ¬ S.pt'.par.ptrEq S.par = false := by rw [S.hpt'.par_eq, ptrEq_self]; simp
  simp only [pairReasons, List.zip_cons_cons, List.zip_nil_left, List.flatMap_cons, List.flatMap_nil, List.cons_append, List.nil_append, List.append_nil, List.length_cons, List.length_nil, S.parts, S.parts',
    S.enc.level_eq, S.enc'.level_eq, p1, p2, c1, c2, Answers] at this
  obtain ⟨r, hr⟩ : ∃ r, dotProductScalar [S.ct, S.ct'] [S.pt, S.pt'] = Res.ok r := by simpa using this
  refine ⟨r, hr, fun h h' => (C87_dot hr).2 fun z hz => ?_⟩
  simp only [List.zip_cons_cons, List.zip_nil_left, List.mem_cons, List.not_mem_nil, or_false] at hz
  rcases hz with rfl | rfl
  · exact ⟨by rw [permits, S.flags]; rfl, h⟩
  · exact ⟨by rw [permits, S.flags']; rfl, h'⟩

/-! ## Several parties -/

theorem Scene.crpAt : S.par.contextAtLevel 0 = Res.ok S.crp.poly.ctx := by rw [S.crpCtx]; exact S.ctxAt
theorem Scene.ctAt : S.par.contextAtLevel S.ct.level = Res.ok S.ctx := by rw [S.enc.level_eq]; exact S.ctxAt

example := C67_share luckyBuild_ok S.h S.hk S.hk S.use exRng_ok
example := C51_first_crp ⟨S.par, S.crp, S.crp.poly⟩ [⟨S.par, S.crp, S.crp.poly⟩] fun x => (x.crp, S.other)
example := (C52_rejects luckyBuild_ok S.h S.hk.par_eq [S.crp] exRng).2 (by rw [S.count]; decide) (by rw [S.count]; simp)
example := (C53_secret_rejects (sk := S.sk) (sk' := S.sk) (ct := S.prod) exRng).2.2 rfl (by rw [S.hk.par_eq, S.prodUse.par_eq]) (by rw [S.prodParts]; decide)
example := C53_public_ignores_rest S.sk S.pk S.prod exRng exRng exRng

/-- Two shares of a public key and of a decryption, in either order. -/
example : ∃ x y z, PublicKeyShare.new S.sk S.crp exRng = Res.ok x ∧ SecretKeySwitchShare.new S.sk S.sk S.ct exRng = Res.ok y ∧ z = DecryptionShare.mk y ∧
    (∃ pk, PublicKeyShare.aggregate [x, { x with p0Share := S.crp.poly }] = Res.ok pk ∧ PublicKeyShare.aggregate [{ x with p0Share := S.crp.poly }, x] = Res.ok pk) ∧
    DecryptionShare.aggregate [z, ⟨{ y with hShare := S.crp.poly }⟩] = DecryptionShare.aggregate [⟨{ y with hShare := S.crp.poly }⟩, z] := by
  obtain ⟨x, x1, x2, x3, x4, x5⟩ := (C70_honest (c := S.ctx) luckyBuild_ok S.h S.hk S.hk exRng_ok).1 S.crpAt S.crpValid
  obtain ⟨y, y1, y2, y3, y4, y5⟩ := (C70_honest (c := S.ctx) luckyBuild_ok S.h S.hk S.hk exRng_ok).2 S.use S.parts S.ctAt
  refine ⟨x, y, _, x1, y1, rfl, C70_public_key luckyBuild_ok S.h S.ctxAt S.crpCtx (fun u hu => ?_) (by simp) (.swap _ _ _), C70_decryption luckyBuild_ok S.h S.use S.ctAt (fun u hu => ?_) (.swap _ _ _)⟩
  · simp only [List.mem_cons, List.not_mem_nil, or_false] at hu
    rcases hu with rfl | rfl
    · exact ⟨x2, x3, x4, x5.trans S.crpCtx⟩
    · exact ⟨x2, x3, S.crpValid, S.crpCtx⟩
  · simp only [List.mem_cons, List.not_mem_nil, or_false] at hu
    rcases hu with rfl | rfl
    · exact ⟨y2, y3, y4, y5⟩
    · exact ⟨y2, y3, S.crpValid, S.crpCtx⟩

/-! ## Movements of slots -/

example := C96_moves luckyBuild_ok S.h S.ekFor S.hs S.ekErr S.enc S.parts S.noise (l := [.columns 3, .columns 3]) (fun x hx => by
  simp only [List.mem_cons, List.not_mem_nil, or_false, or_self] at hx
  rw [hx]
  exact S.ekCol)

end Fhe.Props
