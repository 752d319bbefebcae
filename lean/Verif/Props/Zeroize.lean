import Verif.Model.Zeroize
import Verif.Props.BfvPlain
/-!
# C74: wiping leaves nothing of the secret
-/
namespace Fhe.Props
open Nega ParamsBuilder Poly

variable {b : Build} {st : ParamsBuilder} {par : Par} {r : Rep}

theorem wipe_eq (l : List Nat) : wipe l = List.replicate l.length 0 := List.map_const' ..

theorem map_wipe {rows : List (List Nat)} {m n : Nat} (h : rows.length = m) (hc : ∀ row ∈ rows, row.length = n) : rows.map wipe = zeroRows m n := by
  rw [zeroRows, List.eq_replicate_iff]
  refine ⟨by rw [List.length_map, h], fun x hx => ?_⟩
  obtain ⟨row, hr, rfl⟩ := List.mem_map.1 hx
  rw [wipe_eq, hc row hr]

theorem length_q (hb : b.OK) {moduli : List Nat} {degree : Nat} {c : Context} (h : Context.new b moduli degree = some (.ok c)) : c.q.length = c.moduli.length := by
  obtain ⟨n, -, hw, -⟩ := Context.new_inv hb h
  rw [hw.level.q, hw.level.moduli, List.length_map, List.length_map]

theorem zeroize_valid {c : Context} (hq : c.q.length = c.moduli.length) {p : Poly r} (hv : p.Valid) (hp : p.ctx = c) : p.zeroize = { Poly.zero r c with vt := p.vt } := by
  subst hp
  unfold Poly.zeroize Poly.zeroizeShoup Poly.zero
  have h1 : p.coeffs.map wipe = zeroRows p.ctx.q.length p.ctx.degree := map_wipe (by rw [hv.rows, hq]) hv.columns
  have h2 : p.shoup.map (fun rows => rows.map wipe) = if r = .nttShoup then some (zeroRows p.ctx.q.length p.ctx.degree) else none := by
    rw [hv.shoup]
    split
    · rw [Option.map_some, Option.some.injEq]
      refine map_wipe ?_ fun row hr => ?_
      · rw [List.length_zipWith, hv.rows, hq, Nat.min_self]
      · obtain ⟨i, hi, rfl⟩ := List.mem_iff_getElem.1 hr
        rw [List.length_zipWith] at hi
        rw [List.getElem_zipWith, List.length_map]
        exact hv.columns _ (List.getElem_mem _)
    · rfl
  simp only [h1, h2, hv.notLazy]

/-- C74: a wiped polynomial, in any representation, is the zero polynomial: nothing of its value, and nothing of the precomputed
table, is left. -/
theorem C74_poly (hb : b.OK) {moduli : List Nat} {degree : Nat} {c : Context} (h : Context.new b moduli degree = some (.ok c)) {p : Poly r} (hv : p.Valid) (hp : p.ctx = c) :
    p.zeroize.beq (Poly.zero r c) = true ∧ p.zeroize.Valid ∧ (∀ row ∈ p.zeroize.coeffs, ∀ x ∈ row, x = 0) ∧ ∀ t, p.zeroize.shoup = some t → ∀ row ∈ t, ∀ x ∈ row, x = 0 := by
  have hq := length_q hb h
  obtain ⟨n, -, hw, -⟩ := Context.new_inv hb h
  have hz := zeroize_valid hq hv hp
  have h0 : ∀ row ∈ zeroRows c.q.length c.degree, ∀ x ∈ row, x = 0 := by
    intro row hr x hx
    rw [List.eq_of_mem_replicate hr] at hx
    exact List.eq_of_mem_replicate hx
  refine ⟨?_, ?_, ?_, ?_⟩
  · rw [hz]; simp [Poly.beq, Poly.zero]
  · rw [hz, zero_enc hw]
    exact valid_enc hw (vt := p.vt) 0
  · rw [hz]; exact h0
  · intro t ht
    rw [hz] at ht
    simp only [Poly.zero] at ht
    split at ht
    · obtain rfl := Option.some.inj ht; exact h0
    · cases ht

/-- C74: polynomials of one context that are wiped cannot be told apart. -/
theorem C74_poly_forgets (hb : b.OK) {moduli : List Nat} {degree : Nat} {c : Context} (h : Context.new b moduli degree = some (.ok c)) {p p' : Poly r} (hv : p.Valid) (hp : p.ctx = c)
    (hv' : p'.Valid) (hp' : p'.ctx = c) (hvt : p.vt = p'.vt) : p.zeroize = p'.zeroize := by
  rw [zeroize_valid (length_q hb h) hv hp, zeroize_valid (length_q hb h) hv' hp', hvt]

/-- C74: a wiped secret key has zero coefficients, and wiped keys of one size cannot be told apart. -/
theorem C74_secret_key {sk sk' : SecretKey} (hp : sk.par = sk'.par) (hl : sk.coeffs.length = sk'.coeffs.length) :
    sk.zeroize = sk'.zeroize ∧ (∀ x ∈ sk.zeroize.coeffs, x = 0) ∧ sk.zeroize.coeffs.length = sk.coeffs.length := by
  have hc : ∀ l : List Int, (l.map fun _ => (0 : Int)) = List.replicate l.length 0 := fun l => List.map_const' ..
  refine ⟨?_, ?_, ?_⟩
  · unfold SecretKey.zeroize
    rw [hc, hc, hl, hp]
  · intro x hx
    unfold SecretKey.zeroize at hx
    rw [hc] at hx
    exact List.eq_of_mem_replicate hx
  · unfold SecretKey.zeroize; rw [List.length_map]

/-- C74: a wiped plaintext holds the zero message, is equal to `Plaintext::zero` of its encoding, and wiped plaintexts of one level and
encoding cannot be told apart. -/
theorem C74_plaintext (hb : b.OK) (h : build b st = Res.ok par.toBfvParameters) {pt : Plaintext} {level : Nat} {m : par.Msg} (hm : pt.Holds par level m) :
    pt.zeroize.Holds par level 0 ∧
    (∀ e : Encoding, pt.encoding = some e → e.level = level → ∃ z, Plaintext.zero e par = Res.ok z ∧ pt.zeroize.beq z = true) ∧
    ∀ (pt' : Plaintext) (m' : par.Msg), pt'.Holds par level m' → pt'.encoding = pt.encoding → pt'.polyNtt.vt = pt.polyNtt.vt → pt'.zeroize = pt.zeroize := by
  obtain ⟨n, hw, -⟩ := build_inv hb h
  have ht := hw.t_pos
  obtain ⟨l, hl, hctx⟩ := ParWF.contextAtLevel_iff.1 hm.ctx
  obtain ⟨h1, h2, h3⟩ := hw.ctxWF hl
  have h1' := h1.neZero
  have hq : l.ctx.q.length = l.ctx.moduli.length := by rw [h1.level.q, h1.level.moduli, List.length_map, List.length_map]
  have hz := zeroize_valid hq hm.valid hctx.symm
  have hz0 : ∀ x ∈ msgCoeffs (0 : par.Msg), x = 0 := by
    intro x hx
    obtain ⟨j, rfl⟩ := List.mem_ofFn.1 hx
    rw [Nega.zero_apply, ZMod.val_zero]
  have he : ofNats l.ctx (msgCoeffs (0 : par.Msg)) = 0 := by
    funext j
    show (((msgCoeffs (0 : par.Msg)).getD j 0 : Nat) : ZMod l.ctx.modulus) = 0
    rw [List.getD_eq_getElem _ _ (by rw [length_msgCoeffs, ← h3]; exact j.isLt), hz0 _ (List.getElem_mem _)]; simp
  refine ⟨?_, fun e hen hlev => ?_, fun pt' m' hm' hen hvt => ?_⟩
  · refine Plaintext.holds_of_enc hw hm.par_eq hl (vt := pt.polyNtt.vt) ?_ fun x hx => ?_
    · rw [he, show pt.zeroize.polyNtt = pt.polyNtt.zeroize from rfl, hz, zero_enc h1]; rfl
    · rw [hz0 x hx]; exact NeZero.pos _
  · subst hlev
    refine ⟨{ par, encoding := some e, polyNtt := Poly.zero .ntt l.ctx }, ?_, ?_⟩
    · unfold Plaintext.zero
      rw [ParWF.contextAtLevel_iff.2 ⟨l, hl, rfl⟩, Res.ok_bind]; rfl
    · unfold Plaintext.beq
      rw [show pt.zeroize.polyNtt = pt.polyNtt.zeroize from rfl, hz, show pt.zeroize.par = pt.par from rfl, show pt.zeroize.encoding = pt.encoding from rfl, hm.par_eq, hen]
      simp [Poly.beq, Poly.zero]
  · obtain ⟨l', hl', hctx'⟩ := ParWF.contextAtLevel_iff.1 hm'.ctx
    obtain rfl : l = l' := by rw [hl] at hl'; exact Option.some.inj hl'
    have hz' := zeroize_valid hq hm'.valid hctx'.symm
    unfold Plaintext.zeroize
    rw [hz, hz', hen, hm.par_eq, hm'.par_eq, hvt]

/-- C74: a wiped vector of plaintexts is empty, and what is left in its buffer are wiped plaintexts, none of which holds anything
but the zero message. -/
theorem C74_vector (hb : b.OK) (h : build b st = Res.ok par.toBfvParameters) {pts : List Plaintext} {level : Nat} (hp : ∀ pt ∈ pts, ∃ m, pt.Holds par level m) :
    (PlaintextVec.zeroize pts).1 = [] ∧ (PlaintextVec.zeroize pts).2.length = pts.length ∧ ∀ pt ∈ (PlaintextVec.zeroize pts).2, pt.Holds par level 0 := by
  refine ⟨rfl, by unfold PlaintextVec.zeroize; rw [List.length_map], fun pt hpt => ?_⟩
  obtain ⟨pt', h1, rfl⟩ := List.mem_map.1 hpt
  obtain ⟨m, hm⟩ := hp pt' h1
  exact (C74_plaintext hb h hm).1

/-- C74: a wiped builder of evaluation keys no longer depends on the secret key it was made from. -/
theorem C74_builder (s : EvaluationKeyBuilder) {sk : SecretKey} (hp : s.sk.par = sk.par) (hl : s.sk.coeffs.length = sk.coeffs.length) :
    s.zeroize = ({ s with sk } : EvaluationKeyBuilder).zeroize ∧ (∀ x ∈ s.zeroize.sk.coeffs, x = 0) := by
  obtain ⟨h1, h2, -⟩ := C74_secret_key hp hl
  refine ⟨?_, h2⟩
  unfold EvaluationKeyBuilder.zeroize
  rw [h1]

/-- A non-zero plaintext and a non-zero key meet the hypotheses. -/
example : ∃ (par : Par) (pt : Plaintext) (m : par.Msg), build luckyBuild exBuilder = Res.ok par.toBfvParameters ∧ pt.Holds par 1 m ∧ pt.encoding = some ⟨.poly, 1⟩ ∧
    coeff m 2 = 16 ∧ pt.zeroize.Holds par 1 0 ∧ (∃ z, Plaintext.zero ⟨.poly, 1⟩ par = Res.ok z ∧ pt.zeroize.beq z = true) := by
  obtain ⟨par, h, hd, ht, hm, hop, h0, h1, h2⟩ := exParams
  obtain ⟨m, hc, -, -, hh⟩ := C35_poly luckyBuild_ok h (level := 1) (by rw [hm]; decide) (by rw [h1, ht]; decide) (v := [1, 2, 16]) (by rw [hd]; decide) (by rw [ht]; decide)
  obtain ⟨pt, e1, e3, e4, e2⟩ := hh (by decide) false
  obtain ⟨g1, g2, -⟩ := C74_plaintext luckyBuild_ok h e3
  exact ⟨par, pt, m, h, e3, e4, hc 2, g1, g2 _ e4 rfl⟩
example (par : Par) : (⟨par, [1, -1, 0, 2]⟩ : SecretKey).zeroize.coeffs = [0, 0, 0, 0] := rfl

end Fhe.Props
