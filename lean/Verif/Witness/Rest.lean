import Verif.Witness.Bytes
import Verif.Witness.Low
import Verif.Props.Capacity
import Verif.Props.WorstCase
/-!
# Further theorems, applied to a concrete scene
-/
namespace Fhe.Props
open Nega Poly ParamsBuilder Ciphertext

variable (S : Scene)

/-! Values above the plaintext modulus. -/

example : ∃ (pt : Plaintext) (r : Ciphertext) (m' : S.par.Msg), Plaintext.tryEncodeBigUint [1, 2000000] ⟨.poly, 0⟩ S.par = Res.ok pt ∧ S.ct.mulPlain pt = some r ∧
    (∀ j, m' j = ((IntPoly.ofList S.par.degree ([1, 2000000].map fun x : Nat => ((x % S.par.modulusAt 0 : Nat) : Int)) j : Int) : ZMod S.par.plaintext.value)) ∧
    (∃ w, r.Encrypts S.par S.s 0 (S.m * m') w) ∧ ∃ (pt' : Plaintext) (m' : S.par.Msg), pt'.Holds S.par 0 m' ∧ pt.decodeU64 none = pt'.decodeU64 none := by
  obtain ⟨pt, h1, -, h2⟩ := (C85_coefficients luckyBuild_ok S.h (level := 0) (by rw [S.count]; decide) (v := [1, 2000000]) (by rw [S.hd]; decide)).1
  obtain ⟨r, m', r1, r2, r3⟩ := C85_multiply luckyBuild_ok S.h S.enc h2
  obtain ⟨pt', m'', p1, -, -, p2, -⟩ := C85_read luckyBuild_ok S.h h2 (fun j => by
    have : ∀ k : Nat, 0 ≤ ([1, 2000000].map fun x : Nat => ((x % 2115473 : Nat) : Int)).getD k 0 ∧ ([1, 2000000].map fun x : Nat => ((x % 2115473 : Nat) : Int)).getD k 0 < 2115473
      | 0 => by decide
      | 1 => by decide
      | k + 2 => by simp
    rw [S.h0]
    exact this j) S.head
  exact ⟨pt, r, m', h1, r1, r2, ⟨_, r3⟩, pt', m'', p1, (p2 _).1⟩

/-! Equality and bytes. -/

example := C82_secret_key luckyBuild_ok S.h (k := S.sk) (k' := S.sk) ⟨S.hk.par_eq, S.hk.length, S.hk.word⟩ ⟨S.hk.par_eq, S.hk.length, S.hk.word⟩
example (h : S.par.toBytes.length < 2 ^ 64) := C82_parameters luckyBuild_ok S.h S.h h
example := C32_rejects (b := luckyBuild) { degree := 8, moduli := [97, 113, 193], plaintext := none, variance := 1 } (Or.inl rfl)
example := C55_galois_total luckyBuild_ok S.h exPrg_ok (m := (3, none)) (by simp)
example := C55_galois_total luckyBuild_ok S.h exPrg_ok (m := (3, some { c0 := [[1, 2]], c1 := [], seed := List.replicate 32 7, ciphertextLevel := 0, kskLevel := 0, logBase := 0 }))
  (by rintro x ⟨⟩; exact ⟨by simp [IsBytes], by decide⟩)
example : S.ct.Encrypts S.par S.s 0 S.m S.v :=
  C72_meaning luckyBuild_ok luckyBuild_ok S.h S.h ⟨rfl, rfl, rfl, rfl⟩ S.use ⟨rfl, List.forall₂_same.2 fun _ _ => ⟨rfl, rfl⟩⟩ rfl rfl rfl S.enc
example {seed : Seed} (h : S.ct.seed = some seed) := C72_seeded luckyBuild_ok luckyBuild_ok S.h S.h ⟨rfl, rfl, rfl, rfl⟩ S.some32 exPrg_ok S.wf h

/-! Shares in any order. -/

theorem Scene.zeroAt : S.crp.poly.zeroize.Valid ∧ S.crp.poly.zeroize.ctx = S.ctx :=
  ⟨(C74_poly luckyBuild_ok S.ctxNew S.crpValid S.crpCtx).2.1, S.crpCtx⟩

example := C70_public_switch luckyBuild_ok S.h S.ctxAt (c0 := S.crp.poly) ⟨S.crpValid, S.crpCtx⟩ (l := [⟨S.par, S.crp.poly, S.crp.poly, S.crp.poly⟩, ⟨S.par, S.crp.poly, S.crp.poly.zeroize, S.crp.poly⟩])
  (by simp [S.crpValid, S.crpCtx, S.zeroAt]) (by simp) (.swap _ _ _)
example := (C70_relin luckyBuild_ok S.h S.ctxAt (m := 1)).1 (l := [⟨S.par, [S.crp.poly], [S.crp.poly.zeroize]⟩, ⟨S.par, [S.crp.poly], [S.crp.poly]⟩])
  (by simp [S.crpValid, S.crpCtx, S.zeroAt]) (by simp) (.swap _ _ _)
example := (C70_relin luckyBuild_ok S.h S.ctxAt (m := 1)).2 (r1 := none) (l := [⟨S.par, [S.crp.poly], [S.crp.poly.zeroize], none⟩, ⟨S.par, [S.crp.poly], [S.crp.poly], none⟩])
  (by simp [S.crpValid, S.crpCtx, S.zeroAt]) (.swap _ _ _)

/-! Equality of plaintexts, and generators with too few random polynomials. -/

example := C75_plaintexts luckyBuild_ok S.h S.hpt S.hpt'
example := (C52_rejects_rounds luckyBuild_ok S.h ⟨S.sk, [S.crp], S.crp.poly⟩ S.hk.par_eq (fun _ => exRng) (fun _ => exRng) ⟨S.par, [], [], none⟩ rfl []).1 (by rw [S.count]; simp)
example := (C52_rejects_rounds luckyBuild_ok S.h ⟨S.sk, [S.crp], S.crp.poly⟩ S.hk.par_eq (fun _ => exRng) (fun _ => exRng) ⟨S.par, [], [], none⟩ rfl []).2 rfl
example {bytes bytes' : List Nat} (h : IsBytes bytes) (h' : IsBytes bytes') (e : Ciphertext.fromBytes exPrg bytes S.par = Res.ok S.ct) (e' : Ciphertext.fromBytes exPrg bytes' S.par = Res.ok S.ct') :=
  C82_accepted luckyBuild_ok S.h exPrg_ok S.some32 h h' e e'

/-! The default parameters with 20 bits of plaintext, of degree 8192 and of degree 1024. -/

example : ∃ (l : List BfvParameters) (par : Par), defaultParameters128 luckyBuild 20 = Res.ok l ∧ par.toBfvParameters ∈ l ∧ par.degree = 8192 ∧
    ∃ (sk : SecretKey) (pk : PublicKey) (px : Plaintext), SecretKey.random par exRng = some sk ∧ PublicKey.new exPrg sk (List.replicate 32 7) exRng = some pk ∧
      Plaintext.tryEncodeU64 [1, 2, 3] ⟨.simd, 0⟩ par false = Res.ok px := by
  obtain ⟨l, -, par', e1, -, e2, e3, -, -, e4, -⟩ := default_20 luckyBuild_ok luckyBuild_lucky
  have hx : ∀ _ : Nat, [1, 2, 3].length ≤ (⟨par', 0⟩ : Par).degree ∧ ∀ a ∈ [1, 2, 3], a < (⟨par', 0⟩ : Par).plaintext.value := fun _ => by
    rw [show (⟨par', 0⟩ : Par).degree = 8192 from e3, show (⟨par', 0⟩ : Par).plaintext.value = 1032193 from e4]
    decide
  obtain ⟨sk, pk, px, -, a1, a2, a3, -⟩ := C92_slots (par := ⟨par', 0⟩) (B := 25) (w := 1) (d := 3) luckyBuild_ok luckyBuild_lucky e1 (List.mem_of_getElem? e2)
    (by rw [show (⟨par', 0⟩ : Par).degree = 8192 from e3]; decide) (by decide) exPrg_ok (seed := List.replicate 32 7) (seed' := List.replicate 32 9) (by simp) exRng_ok exRng_ok
    (rngs := fun _ => exRng) (fun _ => exRng_ok) hx hx
  exact ⟨l, _, e1, List.mem_of_getElem? e2, e3, sk, pk, px 0, a1, a2, a3 0⟩

example : ∃ (l : List BfvParameters) (par : Par) (sk : SecretKey) (pt pt' : Plaintext) (ct : Ciphertext), defaultParameters128 luckyBuild 20 = Res.ok l ∧ par.toBfvParameters ∈ l ∧ par.degree = 1024 ∧
    sk.tryEncrypt exPrg pt (List.replicate 32 7) exRng = Res.ok ct ∧ sk.tryDecrypt luckyBuild ct = Res.ok pt' ∧ pt'.Holds par 0 0 ∧
    RelinearizationKey.newLeveled luckyBuild exPrg sk 0 0 (List.replicate 32 7) (fun _ => exRng) = Res.err .keySwitchingNotSupported := by
  obtain ⟨l, e1, e2⟩ := C31_defaults_lines luckyBuild_ok luckyBuild_lucky (bits := 20) (by decide) (by decide)
    ⟨_, by decide, serves_of (e := (1024, [0x7e00001])) (by decide) (by decide) largest_20_1024 (by decide) (by decide)⟩
  rw [lines_20] at e2
  obtain ⟨par0, h1, h2, -, -, -, h⟩ := default_at luckyBuild_ok luckyBuild_lucky (by decide) (by decide) e1 (k := 0) (by rw [e2]; rfl) largest_20_1024
  obtain ⟨z, -, hz, -⟩ := C35_zero (par := ⟨par0, 0⟩) luckyBuild_ok h (e := ⟨.poly, 0⟩) (by obtain ⟨n, hw, -⟩ := build_inv luckyBuild_ok h; exact List.length_pos_of_ne_nil hw.ne_nil)
  obtain ⟨sk, s, hk⟩ : ∃ (sk : SecretKey) (s : IntPoly (⟨par0, 0⟩ : Par).degree), sk.IsKey ⟨par0, 0⟩ s :=
    ⟨⟨⟨par0, 0⟩, List.replicate par0.degree 1⟩, _, rfl, by simp, fun x hx => by rw [List.eq_of_mem_replicate hx]; decide, rfl⟩
  obtain ⟨ct, pt', c1, c2, c3⟩ := C92_secret_key (par := ⟨par0, 0⟩) luckyBuild_ok e1 (List.mem_of_getElem? h1) h2 (by decide) exPrg_ok hk hz (seed := List.replicate 32 7) (by simp) exRng_ok
  exact ⟨l, _, sk, z, pt', ct, e1, List.mem_of_getElem? h1, h2, c1, c2, c3, C92_no_products (par := ⟨par0, 0⟩) luckyBuild_ok e1 (List.mem_of_getElem? h1) (.inl h2) exPrg_ok hk _ fun _ => exRng_ok⟩

end Fhe.Props
