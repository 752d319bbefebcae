import Verif.Lemmas.SameRest
/-!
# Lemmas on multiplicators and the multiplication of ciphertexts
-/
namespace Fhe
open Nega Poly Ciphertext

variable {b : Build} {n : Nat} {par : Par} {i : Nat} {l : ContextLevel}

namespace ParamsBuilder

theorem extendedBasis_prefix {degree needed : Nat} {moduli : List Nat} : ∀ (ub : Nat) (acc : List Nat) {basis : List Nat}, extendedBasis degree needed moduli acc ub = Res.ok basis → acc <+: basis := by
  intro ub
  induction ub using Nat.strong_induction_on with
  | _ ub ih =>
    intro acc basis h
    rw [extendedBasis] at h
    split at h
    · rw [Res.ok_inj] at h; rw [h]
    · rw [Res.bind_eq_ok] at h
      obtain ⟨o, -, h⟩ := h
      match o, h with
      | none, h => exact absurd h Res.err_ne_ok
      | some p, h =>
        simp only [] at h
        split at h
        · rename_i hp
          have := ih p hp _ h
          split at this
          · exact (List.prefix_append _ _).trans this
          · exact this
        · exact absurd h (by rintro ⟨⟩)

/-- Fewer primes, outside a part of the moduli that contains those of 62 bits, are the first ones. -/
theorem extendedBasis_take {degree needed needed' : Nat} (hd : 1 ≤ degree) {moduli moduli' : List Nat} (hn : needed' ≤ needed) (hsub : moduli' ⊆ moduli) (hlarge : ∀ q ∈ moduli, 2 ^ 61 ≤ q → q ∈ moduli') :
    ∀ (ub : Nat) (acc : List Nat) {basis : List Nat}, 0 < ub → ub ≤ 2 ^ 62 → acc.length ≤ needed' → extendedBasis degree needed moduli acc ub = Res.ok basis →
      extendedBasis degree needed' moduli' acc ub = Res.ok (basis.take needed') := by
  intro ub
  induction ub using Nat.strong_induction_on with
  | _ ub ih =>
    intro acc basis h0 hub hacc h
    have hpre := extendedBasis_prefix ub acc h
    rw [extendedBasis]
    by_cases hl : acc.length = needed'
    · rw [if_pos hl, ← hl, ← List.prefix_iff_eq_take.1 hpre]
    rw [if_neg hl]
    rw [extendedBasis, if_neg (by omega)] at h
    rcases Props.C09_generate_prime (by norm_num) (by norm_num) (by omega : 2 ≤ 2 * degree) h0 hub with ⟨p, h1, h2, h3⟩ | ⟨h1, h2⟩
    · rw [h1, Res.lift_some, Res.ok_bind] at h ⊢
      simp only [] at h ⊢
      rw [dif_pos h2.2.2.2.2] at h ⊢
      have hp : p ∈ moduli ↔ p ∈ moduli' := ⟨fun hm => hlarge p hm (by have := h2.2.1; norm_num at this ⊢; omega), fun hm => hsub hm⟩
      have hiff : (p ∉ acc ∧ p ∉ moduli') ↔ (p ∉ acc ∧ p ∉ moduli) := by rw [hp]
      have hple : p ≤ 2 ^ 62 := by have := h2.2.2.1; omega
      rw [if_congr hiff rfl rfl]
      refine ih p h2.2.2.2.2 _ h2.1.pos hple ?_ h
      split
      · rw [List.length_append, List.length_singleton]; omega
      · exact hacc
    · rw [h1, Res.lift_some, Res.ok_bind] at h
      exact absurd h Res.err_ne_ok

/-- The basis in which the products of a level are computed. -/
theorem assemble_basis {degree variance : Nat} {t : PlaintextModulus} {moduli : List Nat} {par : BfvParameters} (h : assemble b degree variance t moduli = Res.ok par) :
    ∃ basis, extendedBasis degree (moduli.length + 1) moduli [] (1 <<< 62) = Res.ok basis ∧ ∀ i l, par.levels[i]? = some l →
      ((par.moduliSizes.take (moduli.length - i)).sum + 60 + 61) / 62 ≤ basis.length ∧
      Context.new b (moduli.take (moduli.length - i) ++ basis.take (((par.moduliSizes.take (moduli.length - i)).sum + 60 + 61) / 62)) degree = some (.ok l.mul.dst) := by
  unfold assemble at h
  simp only [Res.bind_eq_ok, Res.lift_eq_ok, Res.math_eq_ok] at h
  obtain ⟨pc, hpc, op, hop, brs, hbrs, basis, hbasis, ls, hls, im, him, h⟩ := h
  rw [Res.pure_eq, Res.ok_inj] at h
  subst h
  refine ⟨basis, hbasis, fun i l hl => ?_⟩
  obtain ⟨e1, e2⟩ := contextLevels_inv hls
  obtain ⟨cp, hcp, hlev⟩ := e2 i l hl
  obtain ⟨a1, a2, a3, a4, a5, a6, a7, a8⟩ := contextLevel_inv hlev
  simp only [List.length_map, Nat.zero_add] at a5 a6
  exact ⟨a5, a6⟩

end ParamsBuilder

namespace Multiplicator
variable {mp : Multiplicator} {rk : RelinearizationKey} {ct ct' r : Ciphertext}

/-- The default multiplicator has the contexts and scalers of its level, unless a modulus of 62 bits was dropped. -/
theorem default_scalers (hw : ParWF b n par.toBfvParameters) (hasm : ParamsBuilder.assemble b par.degree par.variance par.plaintext par.moduli = Res.ok par.toBfvParameters) (ha : AtLevel b n par i l)
    (hp : rk.ksk.par = par) (hi : rk.ksk.ciphertextLevel = i) (hlarge : ∀ q ∈ par.moduli.drop (par.moduli.length - i), q < 2 ^ 61) (hmp : default b rk = Res.ok mp) :
    mp = { par := par, extenderLhs := l.mul.extender, extenderRhs := l.mul.extender, downScaler := l.mul.downScaler, baseCtx := l.ctx, mulCtx := l.mul.dst, rk := some rk, modSwitch := false, level := i } := by
  obtain ⟨basis, hb, hlev⟩ := ParamsBuilder.assemble_basis hasm
  obtain ⟨h1, h2⟩ := hlev i l ha.get
  obtain ⟨pc, hpc, hlevs⟩ := hw.levels
  have hL := hlevs i l ha.get
  obtain ⟨SF, hSF, hS⟩ := hL.down
  have hlen : l.ctx.moduli.length = par.moduli.length - i := ha.length
  have hdeg : 1 ≤ par.degree := by rw [hw.degree]; exact Nat.one_le_two_pow
  have hsizes : par.moduliSizes.length = par.moduli.length := by rw [hw.sizes, List.length_map]
  have hneed : basis.length = par.moduli.length + 1 := by
    rcases ParamsBuilder.extendedBasis_spec (degree := par.degree) (needed := par.moduli.length + 1) hdeg par.moduli (1 <<< 62) [] (by decide) (by decide) .nil (by simp) (by simp)
      (fun p hp hle _ => by have := hp.2.2.1; rw [Nat.one_shiftLeft] at hle; omega) with ⟨l, h1, h2, h3', h4⟩ | ⟨l, h1, -⟩
    · rw [hb, Res.ok_inj] at h1
      rw [h1, h3']
    · rw [hb] at h1; exact absurd h1.symm Res.err_ne_ok
  have hext := ParamsBuilder.extendedBasis_take (moduli' := par.moduli.take (par.moduli.length - i)) (needed' := ((par.moduliSizes.take (par.moduli.length - i)).sum + 60 + 61) / 62) hdeg (by omega)
    (List.take_subset _ _) (fun q hq hl => by
      rw [← List.take_append_drop (par.moduli.length - i) par.moduli, List.mem_append] at hq
      rcases hq with hq | hq
      · exact hq
      · have := hlarge q hq; omega) (1 <<< 62) [] (by decide) (by decide) (by simp) hb
  unfold default at hmp
  rw [hp, hi] at hmp
  simp only [] at hmp
  rw [ha.contextAt, Res.ok_bind, check_eq (by omega), Res.lift_some, Res.ok_bind, hlen, ha.moduli, hext, Res.ok_bind, hSF, Res.lift_some, Res.ok_bind] at hmp
  unfold newLeveled at hmp
  rw [ha.contextAt, Res.ok_bind, h2, Res.math_ok, Res.ok_bind, hL.extender, Res.math_ok, Res.ok_bind, Res.ok_bind, hS, Res.math_ok, Res.ok_bind, Res.pure_eq, Res.ok_bind,
    enableRelinearization_eq ha rfl rfl rk hi, Res.ok_inj] at hmp
  exact hmp.symm

/-- Relinearization is a step of its own, also when it fails. -/
theorem multiply_key (h : ({ mp with rk := none, modSwitch := false } : Multiplicator).multiply ct ct' = Res.ok r) (hv : r.validateFor rk.ksk.par = Res.ok ()) (hl : mp.level = rk.ksk.ciphertextLevel) :
    ({ mp with rk := some rk, modSwitch := false } : Multiplicator).multiply ct ct' = rk.relinearizes r := by
  unfold multiply at h ⊢
  rw [Res.bind_eq_ok] at h
  obtain ⟨_, g1, h⟩ := h
  rw [Res.bind_eq_ok] at h
  obtain ⟨_, g2, h⟩ := h
  by_cases h1 : ct.level ≠ mp.level
  · rw [if_pos h1] at h; exact absurd h Res.err_ne_ok
  by_cases h2 : ct'.level ≠ mp.level
  · rw [if_neg h1, if_pos h2] at h; exact absurd h Res.err_ne_ok
  rw [if_neg h1, if_neg h2] at h
  simp only [] at g1 g2
  simp only []
  rw [g1, Res.ok_bind, g2, Res.ok_bind, if_neg h1, if_neg h2]
  match hc : ct.c, hc' : ct'.c with
  | [l0, l1], [r0, r1] =>
    simp only [hc, hc'] at h ⊢
    rw [Res.bind_eq_ok] at h
    obtain ⟨x, g3, h⟩ := h
    have g4 : ({ mp with rk := some rk, modSwitch := false } : Multiplicator).product l0 l1 r0 r1 = Res.ok x := g3
    rw [g4, Res.ok_bind]
    rw [Res.bind_eq_ok] at h
    obtain ⟨ps, g5, h⟩ := h
    unfold parts at g5 ⊢
    simp only [Res.ok_inj] at g5
    subst g5
    simp only [Bool.false_eq_true, if_false] at h ⊢
    rw [Res.pure_eq, Res.ok_inj] at h
    subst h
    unfold RelinearizationKey.relinearizes
    rw [hv, Res.ok_bind]
    simp only []
    rw [if_neg (by rw [hl]; simp)]
    simp only [bind_assoc, pure_bind]
  | [], _ => simp only [hc] at h; exact absurd h Res.err_ne_ok
  | [_], _ => simp only [hc] at h; exact absurd h Res.err_ne_ok
  | _ :: _ :: _ :: _, _ => simp only [hc] at h; exact absurd h Res.err_ne_ok
  | [_, _], [] => simp only [hc, hc'] at h; exact absurd h Res.err_ne_ok
  | [_, _], [_] => simp only [hc, hc'] at h; exact absurd h Res.err_ne_ok
  | [_, _], _ :: _ :: _ :: _ => simp only [hc, hc'] at h; exact absurd h Res.err_ne_ok

/-- So is switching. -/
theorem multiply_down (mp : Multiplicator) (ct ct' : Ciphertext) :
    ({ mp with modSwitch := true } : Multiplicator).multiply ct ct' = (({ mp with modSwitch := false } : Multiplicator).multiply ct ct') >>= fun r => r.switchDown := by
  unfold multiply
  simp only [bind_assoc]
  refine bind_congr fun _ => bind_congr fun _ => ?_
  by_cases h1 : ct.level ≠ mp.level
  · rw [if_pos h1, if_pos h1]; rfl
  by_cases h2 : ct'.level ≠ mp.level
  · rw [if_neg h1, if_pos h2, if_neg h1, if_pos h2]; rfl
  rw [if_neg h1, if_neg h2, if_neg h1, if_neg h2]
  match hc : ct.c, hc' : ct'.c with
  | [l0, l1], [r0, r1] =>
    simp only [bind_assoc]
    refine bind_congr fun _ => bind_congr fun _ => ?_
    simp
  | [], _ => rfl
  | [_], _ => rfl
  | _ :: _ :: _ :: _, _ => rfl
  | [_, _], [] => rfl
  | [_, _], [_] => rfl
  | [_, _], _ :: _ :: _ :: _ => rfl

/-- With the scalers of the level, the product is that of the operator. -/
theorem multiply_mul (hw : ParWF b n par.toBfvParameters) (hcount : par.moduli.length ≤ 31) (hsum : par.moduli.sum ≤ 2 ^ 65) (ha : AtLevel b n par i l) {x y : Ciphertext} (hx : x.Usable par) (hy : y.Usable par)
    (hxi : x.level = i) (hyi : y.level = i) (hx2 : x.c.length = 2) (hy2 : y.c.length = 2) :
    ∃ r r', ({ par := par, extenderLhs := l.mul.extender, extenderRhs := l.mul.extender, downScaler := l.mul.downScaler, baseCtx := l.ctx, mulCtx := l.mul.dst, rk := none, modSwitch := false, level := i } :
      Multiplicator).multiply x y = Res.ok r ∧ x.mul y = some r' ∧ Ciphertext.Alike par i l.ctx r r' ∧ r.c.length = 3 := by
  obtain ⟨c, hax⟩ := Ciphertext.Alike.of_usable hw hx
  obtain ⟨c', hay⟩ := Ciphertext.Alike.of_usable hw hy
  rw [hxi] at hax
  rw [hyi] at hay
  obtain rfl : l.ctx = c := by have := hax.ctx_eq; rwa [ha.contextAt, Res.ok_inj] at this
  obtain rfl : l.ctx = c' := by have := hay.ctx_eq; rwa [ha.contextAt, Res.ok_inj] at this
  obtain ⟨F, f1, -, f3⟩ := hax.is ha
  obtain ⟨G, g1, -, g3⟩ := hay.is ha
  have hm := ha.mulWF hw hcount hsum
  obtain ⟨ext, down, hext, hdown, hmul⟩ := Ciphertext.Is.mul_scalers hw hcount hsum ha
  obtain ⟨r', e1, e2, e3⟩ := hmul f1 g1 (by omega) (by omega)
  obtain ⟨v0, v1, F0, F1, hc, rfl⟩ := two_parts f1.parts hx2
  obtain ⟨w0, w1, G0, G1, hc', rfl⟩ := two_parts g1.parts hy2
  have h1 := hx.validateFor hw
  have h2 := hy.validateFor hw
  refine ⟨⟨par, none, [encI l.ctx .ntt (v0 && w0) (down (ext F0 * ext G0)), encI l.ctx .ntt ((v0 && w1) && (v1 && w0)) (down (ext F0 * ext G1 + ext F1 * ext G0)), encI l.ctx .ntt (v1 && w1) (down (ext F1 * ext G1))], i⟩,
    r', ?_, e1, ?_, rfl⟩
  · unfold multiply product parts
    simp only []
    rw [h1, Res.ok_bind, h2, Res.ok_bind, if_neg (by rw [hxi]; simp), if_neg (by rw [hyi]; simp), hc, hc']
    simp only []
    rw [hext, Res.math_ok, Res.ok_bind, hext, Res.math_ok, Res.ok_bind, hext, Res.math_ok, Res.ok_bind, hext, Res.math_ok, Res.ok_bind,
      mulAssign_encI hm.wf hm.deg, Res.lift_some, Res.ok_bind, mulAssign_encI hm.wf hm.deg, Res.lift_some, Res.ok_bind, mulAssign_encI hm.wf hm.deg, Res.lift_some, Res.ok_bind,
      addAssign_encI hm.wf hm.deg (by simp), Res.lift_some, Res.ok_bind, mulAssign_encI hm.wf hm.deg, Res.lift_some, Res.ok_bind, hdown, Res.math_ok, Res.ok_bind,
      hdown, Res.math_ok, Res.ok_bind, hdown, Res.math_ok, Res.ok_bind, Res.pure_eq, Res.ok_bind, Res.ok_bind]
    rfl
  · refine .of_is ha ⟨rfl, rfl, ?_⟩ e3 (by rw [e2])
    simp only [List.map_cons, List.map_nil, List.length_cons, List.length_nil, List.replicate, mulAllI, mulRowI, zero_add]
    exact .cons ⟨_, rfl⟩ (.cons ⟨_, rfl⟩ (.cons ⟨_, rfl⟩ .nil))

end Multiplicator
end Fhe
