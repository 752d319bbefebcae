import Verif.Witness.Scene
import Verif.Props.Zq
import Verif.Props.Util
import Verif.Props.Ntt
import Verif.Props.Rns
import Verif.Props.Scaler
import Verif.Props.RqCtx
import Verif.Props.RqRing
import Verif.Props.RqMore
import Verif.Props.TimingArith
import Verif.Props.TimingBfv
import Verif.Props.TimingKeys
import Verif.Props.Zeroize
import Verif.Props.Float
import Verif.Props.Identify
import Verif.Props.Sizes
import Verif.Props.Wire
import Verif.Props.OtherModuli
import Verif.Props.Release
import Verif.Props.Memory
import Verif.Props.Sampling
import Verif.Props.Unreduced
import Verif.Props.BfvPlain

/-! Concrete cases that meet the hypotheses of the theorems about integers modulo a prime, residues, transforms and polynomials.  Each example applies a theorem to the modulus 1153, or to
the parameters, keys and polynomials of `Verif.Witness.Scene`. -/

namespace Fhe.Props

open Poly

/-! The modulus 1153. -/

theorem new1153 : ∃ m, Modulus.new true 1153 = some (.ok m) := let ⟨m, h, _⟩ := (C01_modulus_new true 1153).1 (by norm_num); ⟨m, h⟩

section

variable {m : Modulus} (hm : Modulus.new true 1153 = some (.ok m))

include hm

example := C02_reduce hm (a := 2 ^ 63) (by norm_num)
example := C02_lazy_reduce hm (a := 2 ^ 63) (b := 2 ^ 127) (by norm_num) (by norm_num)
example := C04_ring hm (a := 1000) (b := 900) (by norm_num) (by norm_num)
example := (C06_vec_unary hm (a := [1, 2, 1152])).1 (by decide)
example := (C06_vec_unary hm (a := [1, 2 ^ 60])).2 (by decide)
example := C06_vec_shoup hm (a := [1, 2 ^ 60]) (b := [1152, 7]) rfl (by decide) (by decide)
example := C07_center hm (a := 1152) (by norm_num)
example := C07_center_reduce hm (x := -577) (by norm_num) (by norm_num)
example := (C07_vec hm).1 [0, 576, 1152] (by decide)
example := (C07_vec hm).2 [0, -(2 ^ 63), 2 ^ 63 - 1] (by decide)
example := C13_serialize hm (a := [0, 1, 2, 3, 4, 5, 6, 1152]) (by decide) (by decide) (by decide)
example := C13_deserialize_range hm (b := [255, 0, 17]) (by decide) (by decide)
example := C76_field_ops hm (a := 1152) (b := 1000) (by norm_num) (by norm_num)
example := (C76_reductions hm).1 (2 ^ 63) (by norm_num)
example := C76_variable_time hm (a := 1152) (b := 1000) (by norm_num) (by norm_num)
example {bs : Nat} (hbs : m.shoup 7 = some bs) := C76_mul_shoup hm (a := 2 ^ 63) (b := 7) (by norm_num) (by norm_num) hbs
example := C76_scalar_mul_vec_reveals_scalar m [1, 2] [3, 4] (s := 5) (s' := 6) (by norm_num) (by norm_num)

end

theorem newOpt : ∃ m, Modulus.new true 4611686018326724609 = some (.ok m) := let ⟨m, h, _⟩ := (C01_modulus_new true 4611686018326724609).1 (by norm_num); ⟨m, h⟩

example {m : Modulus} (hm : Modulus.new true 4611686018326724609 = some (.ok m)) (ho : m.supportsOpt = true) := C03_opt_reduction hm ho

/-! Residues modulo 97, 113 and 193. -/

example {c : RnsContext} (h : RnsContext.new true [97, 113, 193] = some (.ok c)) := C20_project h 2000000
example {c : RnsContext} (h : RnsContext.new true [97, 113, 193] = some (.ok c)) {x y : Nat} := C20_hom h (r := [1, 2, 3]) (s := [96, 112, 192]) rfl rfl (x := x) (y := y)

/-! Packing of bits and the centered binomial distribution. -/

example := (C10_transcode_bytes (n := 11) (by norm_num) (by norm_num)).1 [1, 2047, 3] (by decide) (by decide)
example := C10_round_trip (n := 11) (by norm_num) (by norm_num) (a := [1, 2047, 3]) (by decide) (by decide)
example := C11_transcode_bidirectional (k := 11) (n := 17) (by norm_num) (by norm_num) (by norm_num) (by norm_num) (a := [1, 2047, 3]) (by decide) (by decide)
example := C11_round_trip (k := 11) (n := 17) (by norm_num) (by norm_num) (by norm_num) (by norm_num) (a := [1, 2047, 3]) (by decide) (by decide)
example := C12_sample_vec_cbd (n := 100) (v := 17) (by norm_num) (by norm_num) exRng_ok
example := C12_error (n := 100) (v := 33) (by norm_num) exRng
example := C12_disjoint (v := 17) (i := 3) (j := 5) (by norm_num) (by norm_num)
example := C12_distribution (v := 10) (by norm_num) (-3) (by norm_num)
example {l : List Int} {w : Nat} (h : sampleVecCbd 100 17 exRng = some (.ok (l, w))) := C12_bounded (by norm_num) (by norm_num) exRng_ok h
example := C76_sampler 100 17

/-! Residues and scaling. -/

example := C19_new_error (cfg := true) (l := [6, 10]) (by decide)
example := C21_centered (Q := 1000) (x := 300) (c := 300) (by norm_num) (Or.inl rfl) (by norm_num)
example := C26_rounding 1000 1153 (by norm_num)
example := C24_automorphism (n := 11) (Q := 1153) (e := 5) rfl
example := C95_variance_constant (rnd := id)

/-! Polynomials of the first level of the parameters of `Scene`. -/

namespace Scene

variable (S : Scene)

theorem ctxPoly (r : Rep) (f : S.ctx.Elem) : ∃ p : Poly r, Represents S.ctx p f :=
  let ⟨_, _, hw, _⟩ := Context.new_inv luckyBuild_ok S.ctxNew
  ⟨_, represents_enc (vt := false) hw f⟩

section

variable {f f' : S.ctx.Elem} {p q : Poly .powerBasis} {u : Poly .ntt} {v : Poly .nttShoup} (hp : Represents S.ctx p f) (hq : Represents S.ctx q f') (hu : Represents S.ctx u f)
  (hv : Represents S.ctx v f)

include hp hq hu hv

example := C23_add_sub_neg luckyBuild_ok S.ctxNew (by decide) hp hq
example := C23_scalar luckyBuild_ok S.ctxNew (by decide) hu 12345
example := C23_change luckyBuild_ok S.ctxNew hp hu hv
example := C29_u64_roundtrip luckyBuild_ok S.ctxNew true hp hu hv
example := C29_u64_raw luckyBuild_ok S.ctxNew
example := C30_timed luckyBuild_ok S.ctxNew hv true
example := C30_other (r := .ntt) luckyBuild_ok S.ctxNew
example := C74_poly luckyBuild_ok S.ctxNew hv.valid hv.ctx
example (h : p.vt = q.vt) := C74_poly_forgets luckyBuild_ok S.ctxNew hp.valid hp.ctx hq.valid hq.ctx h

end

/-- The same polynomials at the next level, with one prime fewer. -/
theorem next (S : Scene) : ∃ c', Context.new luckyBuild ([97, 113, 193].take 2) 8 = some (.ok c') :=
  let ⟨c', _, h⟩ := (C22_level luckyBuild_ok S.ctxNew 1).1 (by decide)
  ⟨c', h⟩

section

variable {f f' : S.ctx.Elem} {p q : Poly .ntt} (hp : Represents S.ctx p f) (hq : Represents S.ctx q f')

include hp hq

example := C82_poly luckyBuild_ok S.ctxNew (by norm_num) (by norm_num) hp hq
example := C79_poly luckyBuild_ok S.ctxNew (by norm_num) hp
example := C62_poly luckyBuild_ok S.ctxNew (by norm_num) (by norm_num) hp
example := C89_poly luckyBuild_ok S.ctxNew S.ctxNew rfl (by norm_num) (by norm_num) hp

variable {c' : Context} (hc' : Context.new luckyBuild ([97, 113, 193].take 2) 8 = some (.ok c')) {p' : Poly .ntt} {g g' : c'.Elem} (hp' : Represents c' p' g) (hg : Reduces f g')

include hc' hp' hg

example := C83_lower_left luckyBuild_ok S.ctxNew hc' (by decide) (by decide) hp' hp hg
example := C83_lower_left_mul luckyBuild_ok S.ctxNew hc' (by decide) hp' hp hg
example (h : Reduces f' g) := C83_higher_left_mul luckyBuild_ok S.ctxNew hc' (by decide) hp hp' h
example := C89_poly_refused luckyBuild_ok hc' S.ctxNew (by decide) (by norm_num) (by norm_num) hp'

end

example := C28_total luckyBuild_ok S.ctxNew (m := { representation := 2, degree := 8, coefficients := [1, 2, 3], allowVariableTime := true }) ⟨by decide, by decide⟩ .ntt true
example := C62_poly_any luckyBuild_ok S.ctxNew (bytes := [8, 1, 16, 8]) (show ∀ x ∈ _, _ by decide) .ntt
example := (C29_big luckyBuild_ok S.ctxNew [1, 2 ^ 200] true).1 (by norm_num)
example := (C58_small luckyBuild_ok S.ctxNew 10 exRng exRng_ok).1 (by norm_num)
example := (C58_small luckyBuild_ok S.ctxNew 33 exRng exRng_ok).2 (by norm_num)


/-! Plaintexts, keys and ciphertexts. -/

theorem head : S.par.moduli.head? = some 97 := by rw [S.hm]; rfl

theorem fits : S.par.plaintext.value < 97 := by rw [S.ht]; decide

example := C77_encode_signed luckyBuild_ok S.h (by rw [S.ht]; decide) ⟨.poly, 0⟩ 5
example := C77_decode luckyBuild_ok S.h S.head S.fits S.hpt (some ⟨.poly, 0⟩)
example := C77_encrypt luckyBuild_ok S.h S.head S.fits exPrg (List.replicate 32 7) S.hpt
example := C77_encode_encrypt luckyBuild_ok S.h S.head S.fits exPrg (List.replicate 32 7) ⟨.poly, 0⟩ 5
example := C77_public_encrypt luckyBuild_ok S.h S.head S.fits S.pk S.hpt
example := C77_encode_public_encrypt luckyBuild_ok S.h S.head S.fits S.pk ⟨.poly, 0⟩ 5
example := C77_public_key luckyBuild_ok S.h S.head S.fits exPrg (List.replicate 32 7)
example := C78_galois_key luckyBuild_ok S.h (by rw [S.hm]; decide) exPrg_ok (i := 1) (j := 0) (by rw [S.hm]; decide) (by decide) (x := 5) rfl (List.replicate 32 7)
example {p : Plaintext} (h : S.sk.tryDecrypt luckyBuild S.ct = Res.ok p) := C78_decrypt_reveals luckyBuild_ok S.h S.ct ⟨S.hk.par_eq, S.hk.length⟩ ⟨S.hk.par_eq, S.hk.length⟩ h h rfl
example := C74_secret_key (sk := S.sk) (sk' := { S.sk with coeffs := S.sk.coeffs.map (· + 1) }) rfl (by simp)
example := C74_plaintext luckyBuild_ok S.h S.hpt
example := C74_vector luckyBuild_ok S.h (pts := [S.pt, S.pt']) (level := 0) (by simpa using ⟨⟨_, S.hpt⟩, _, S.hpt'⟩)
example := C71_secret_key luckyBuild_ok S.h (W := 1) (by rw [S.hvar, S.hd]; decide) (t := fun _ => -1) (by intro i; rw [S.hvar]; decide)
example := C71_independent (n := 8) (v := 20) (W := 16) (by norm_num) (by norm_num) (by norm_num) (t := fun i => (i : Int)) (by intro i; simp)
example := C71_moments (n := 8) (v := 20) (W := 16) (i := 3) (j := 5) (by norm_num) (by norm_num) (by norm_num) (by norm_num) (by norm_num)
example := C84_dot_usable luckyBuild_ok S.h (cts := [S.ct, S.ct']) (pts := [S.pt, S.pt']) (by simpa using ⟨S.use, S.use'⟩) (by simpa using ⟨⟨0, _, S.hpt⟩, 0, _, S.hpt'⟩)
example := C85_agree (t := 17) (q := 97) (x := 50) (Or.inl (by norm_num))
example := C35_poly luckyBuild_ok S.h (level := 1) (by rw [S.hm]; decide) (v := [1, 16, 5])
example := C35_unreduced luckyBuild_ok S.h (level := 1) (by rw [S.hm]; decide) S.head (by rw [S.ht]; decide) S.fits (v := [100, 2 ^ 60]) (by rw [S.hd]; decide) (by decide) true
example := C35_zero luckyBuild_ok S.h (e := ⟨.simd, 2⟩) (by rw [S.hm]; decide)
example := (C35_errors luckyBuild_ok S.h).1 (List.replicate 9 1) ⟨.poly, 0⟩ true (by rw [S.hd]; decide)
example := C35_signed luckyBuild_ok S.h (encoding := ⟨.poly, 0⟩) (by rw [S.hm]; decide) (by rw [S.ht, S.h0]; decide) (by simp) (v := [-1, 5, -9]) (by rw [S.hd]; decide) (by decide)

end Scene

end Fhe.Props
