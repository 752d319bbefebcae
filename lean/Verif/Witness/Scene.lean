import Verif.Props.BfvMultiplicator
import Verif.Props.BfvSer
import Verif.Props.Mbfv
import Verif.Props.Robust
/-!
# One concrete situation that meets the hypotheses of the theorems about the scheme

A `Scene` is what a user has after a short session at the parameters of degree 8, plaintext modulus 17 and moduli 97, 113 and 193: a secret key, two plaintexts, two
ciphertexts and their product, and one key of each kind.  `exScene` shows that there is one.  The files beside this one apply the theorems to it, so that all their hypotheses
are met together; `example` without a stated type takes the instantiated conclusion of the theorem.
-/
namespace Fhe.Props
open Nega Poly ParamsBuilder Ciphertext

/-- The requests of the evaluation key of a `Scene`. -/
def sceneRequests : List EvaluationRequest := [.columns 3, .expansion 3, .innerSum]

structure Scene where
  par : Par
  sk : SecretKey
  s : IntPoly par.degree
  pt : Plaintext
  pt' : Plaintext
  m : par.Msg
  m' : par.Msg
  ct : Ciphertext
  ct' : Ciphertext
  v : IntPoly par.degree
  v' : IntPoly par.degree
  h : build luckyBuild exBuilder = Res.ok par.toBfvParameters
  hd : par.degree = 8
  ht : par.plaintext.value = 17
  hm : par.moduli = [97, 113, 193]
  h0 : par.modulusAt 0 = 2115473
  hvar : par.variance = 1
  hrel : par.toBfvParameters.Reliable 0
  hk : sk.IsKey par s
  hs : s.Bounded 2
  hpt : pt.Holds par 0 m
  hpt' : pt'.Holds par 0 m'
  em : msgCoeffs m = [1, 2, 16, 0, 0, 0, 0, 0]
  em' : msgCoeffs m' = [5, 4, 3, 0, 0, 0, 0, 0]
  made : sk.tryEncrypt exPrg pt (List.replicate 32 7) exRng = Res.ok ct
  made' : sk.tryEncrypt exPrg pt' (List.replicate 32 9) exRng = Res.ok ct'
  enc : ct.Encrypts par s 0 m v
  enc' : ct'.Encrypts par s 0 m' v'
  noise : v.Bounded 51
  noise' : v'.Bounded 51
  parts : ct.c.length = 2
  parts' : ct'.c.length = 2
  small : v.Small (par.modulusAt 0)
  wf : ct.WellFormed exPrg par
  wf' : ct'.WellFormed exPrg par
  use : ct.Usable par
  use' : ct'.Usable par
  prod : Ciphertext
  vprod : IntPoly par.degree
  prodMade : ct.mul ct' = some prod
  prodEnc : prod.Encrypts par s 0 (m * m') vprod
  prodParts : prod.c.length = 3
  prodUse : prod.Usable par
  pk : PublicKey
  v0 : IntPoly par.degree
  pkMade : PublicKey.new exPrg sk (List.replicate 32 1) exRng = some pk
  pkPar : pk.par = par
  pkEnc : pk.c.Encrypts par s 0 0 v0
  pkNoise : v0.Bounded (17 * 2)
  pkParts : pk.c.c.length = 2
  pkWf : pk.c.WellFormed exPrg par
  rk : RelinearizationKey
  rkMade : RelinearizationKey.newLeveled luckyBuild exPrg sk 0 0 (List.replicate 32 3) (fun _ => exRng) = Res.ok rk
  rkFor : rk.IsFor par s 0 0 (2 * par.variance)
  rkWf : rk.ksk.WellFormed exPrg par
  gk : GaloisKey
  gkMade : GaloisKey.new luckyBuild exPrg sk 3 0 0 (List.replicate 32 3) (fun _ => exRng) = Res.ok gk
  gkFor : gk.IsFor par s 3 0 0 (2 * par.variance)
  gkWf : gk.WellFormed exPrg par
  ebd : EvaluationKeyBuilder
  ebd' : EvaluationKeyBuilder
  ek : EvaluationKey
  ekNew : EvaluationKeyBuilder.newLeveled luckyBuild sk 0 0 = Res.ok ebd
  ekReq : ebd.requests sceneRequests = some ebd'
  ekMade : ebd'.build luckyBuild exPrg (fun _ => List.replicate 32 3) (fun _ _ => exRng) = Res.ok ek
  ekFor : ek.IsFor par s 0 0 (2 * par.variance)
  ekErr : ek.ErrorAtMost par 2 (2 * par.variance) 6448
  ekWf : ek.WellFormed luckyBuild exPrg par
  ekCol : ek.supportsColumnRotationBy 3 = true
  ekSum : ek.supportsInnerSum = some true
  ekExp : ek.supportsExpansion 3 = some true
  rg : RgswCiphertext
  rgMade : sk.tryEncryptRgsw luckyBuild exPrg pt' (List.replicate 32 3) (List.replicate 32 4) (fun _ => exRng) (fun _ => exRng) = Res.ok rg
  rgEnc : rg.Encrypts par s 0 m' (2 * par.variance)
  rgWf : rg.WellFormed exPrg par
  mp : Multiplicator
  mpMade : Multiplicator.default luckyBuild rk = Res.ok mp
  ctx : Context
  ctxAt : par.contextAtLevel 0 = Res.ok ctx
  ctxNew : Context.new luckyBuild [97, 113, 193] 8 = some (.ok ctx)
  crp : CommonRandomPoly
  crpValid : crp.poly.Valid
  crpCtx : crp.poly.ctx = ctx

theorem exScene : Nonempty Scene := by
  obtain ⟨par, sk, s, pt, pt', m, m', ct, ct', v, v', h, hd, ht, hm, hrel, hk, hs, e2, e2', em, em', f1, f1', f2, f2', f3, f3', f4, f4', f5, f6, h0, hvar⟩ := exCipher
  have hb := luckyBuild_ok
  obtain ⟨n, hw, -⟩ := build_inv hb h
  have hL : par.moduli.length = 3 := by rw [hm]; rfl
  have h64 : par.moduli.length ≤ 64 := by omega
  obtain ⟨c', v1, a1, a2, a3, a4, a5, a6⟩ := C37_encrypt hb h hk exPrg_ok (by rw [h0, ht]; decide) e2' (seed := List.replicate 32 9) rfl exRng_ok
  rw [f1', Res.ok_inj] at a1
  subst a1
  obtain ⟨r, v'', _, _, _, _, _, r1, r2, r3, -⟩ := C39_mul hb h hrel.count hrel.sum f2 f2' (by rw [f4]; decide)
  rw [f4, f4'] at r3
  obtain ⟨pk, v0, p1, p2, p3, p4, p5, -, p7⟩ := C37_public_key hb h hk exPrg_ok (seed := List.replicate 32 1) rfl exRng_ok
  rw [ht, hvar] at p4
  obtain ⟨rk, k1, k2, -⟩ := (C41_new (i := 0) (j := 0) hb h h64 hk exPrg_ok (List.replicate 32 3) (rngs := fun _ => exRng) fun _ => exRng_ok).1 (by omega) (by omega) (by omega)
  obtain ⟨rk', k3, k4⟩ := C55_relin_generated (i := 0) (j := 0) hb h h64 hk exPrg_ok (seed := List.replicate 32 3) rfl (rngs := fun _ => exRng) (fun _ => exRng_ok) (by omega) (by omega) (by omega)
  rw [k1, Res.ok_inj] at k3
  subst k3
  obtain ⟨gk, g1, g2, -⟩ := (C42_new (i := 0) (j := 0) (x := 3) hb h h64 hk exPrg_ok (List.replicate 32 3) (rngs := fun _ => exRng) (fun _ => exRng_ok) (by omega) (by omega)).1 (by decide) (by omega) (by omega)
  obtain ⟨gk', g3, g4, -⟩ := C55_galois_generated (i := 0) (j := 0) (x := 3) hb h h64 hk exPrg_ok (seed := List.replicate 32 3) rfl (rngs := fun _ => exRng) (fun _ => exRng_ok) (by decide) (by omega) (by omega) (by omega)
  rw [g1, Res.ok_inj] at g3
  subst g3
  obtain ⟨bd, bd', ek, x1, x2, x3, x4, -, x5, -, -, x6, x7, x8⟩ := C50_build (i := 0) (j := 0) hb h h64 hk exPrg_ok (by omega) (le_refl _) sceneRequests (fun _ => List.replicate 32 3) (rngs := fun _ _ => exRng)
    (fun _ _ => exRng_ok)
  obtain ⟨_, _, ek', y1, y2, y3, y4⟩ := C55_evaluation_generated (i := 0) (j := 0) hb h h64 hk exPrg_ok (by omega) (le_refl _) sceneRequests (seeds := fun _ => List.replicate 32 3) (fun _ => rfl) (rngs := fun _ _ => exRng)
    (fun _ _ => exRng_ok)
  rw [x1, Res.ok_inj] at y1
  subst y1
  rw [x2, Option.some.injEq] at y2
  subst y2
  rw [x3, Res.ok_inj] at y3
  subst y3
  have xe := x5 (by omega) 2
  have hone : par.modulusAt 0 / par.modulusAt 0 = 1 := by rw [h0]
  rw [hone, hvar, hd, hm] at xe
  obtain ⟨rg, q1, q2, -⟩ := C45_encrypt hb h hk exPrg_ok e2' (List.replicate 32 3) (List.replicate 32 4) (rngs0 := fun _ => exRng) (rngs1 := fun _ => exRng) (fun _ => exRng_ok) (fun _ => exRng_ok)
  obtain ⟨rg', q3, q4⟩ := C55_rgsw_generated hb h hk exPrg_ok e2' (seed0 := List.replicate 32 3) (seed1 := List.replicate 32 4) rfl rfl (rngs0 := fun _ => exRng) (rngs1 := fun _ => exRng) (fun _ => exRng_ok) (fun _ => exRng_ok)
  rw [q1, Res.ok_inj] at q3
  subst q3
  obtain ⟨mp, hmp⟩ := (C39_default hb h hrel.count hrel.sum k2).1 luckyBuild_lucky
  obtain ⟨ctx, hctx, hnew, -⟩ := (C31_levels hb h 0).1 (by omega)
  obtain ⟨p, hp⟩ : ∃ p, p ∈ ct.c := List.exists_mem_of_length_pos (by omega)
  have hval := (Encrypts.valid hw f2).2 p hp
  rw [f2.level_eq, hctx, Res.ok_inj] at hval
  rw [hm, hd] at hnew
  exact ⟨{ par, sk, s, pt, pt', m, m', ct, ct', v, v', h, hd, ht, hm, h0, hvar, hrel, hk, hs, em, em', ctx, mp, rk, gk, ek, rg, pk, v0
           hpt := e2, hpt' := e2', made := f1, made' := f1', enc := f2, enc' := f2', noise := f3, noise' := f3', parts := f4, parts' := f4', small := f5, wf := f6, wf' := a6
           use := f2.usable hw, use' := f2'.usable hw, prod := r, vprod := v'', prodMade := r1, prodEnc := r2, prodParts := r3, prodUse := r2.usable hw
           pkMade := p1, pkPar := p2, pkEnc := p3, pkNoise := p4, pkParts := p5, pkWf := p7, rkMade := k1, rkFor := k2, rkWf := k4, gkMade := g1, gkFor := g2, gkWf := g4
           ebd := bd, ebd' := bd', ekNew := x1, ekReq := x2, ekMade := x3, ekFor := x4, ekErr := by simpa [hvar] using xe, ekWf := y4
           ekCol := x6 3 (by simp [sceneRequests]) (by omega) (by rw [hd]; decide), ekSum := x7 (by simp [sceneRequests]), ekExp := x8 3 (by rw [hd]; decide)
           rgMade := q1, rgEnc := q2, rgWf := q4, mpMade := hmp, ctxAt := hctx, ctxNew := hnew, crp := ⟨p⟩, crpValid := hval.1, crpCtx := hval.2.symm }⟩

end Fhe.Props
