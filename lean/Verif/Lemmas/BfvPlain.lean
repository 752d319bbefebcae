import Verif.Spec.Bfv
import Verif.Lemmas.BfvParams
/-!
# Lemmas on plaintexts
-/
namespace Fhe
open Nega Poly

theorem length_msgCoeffs {N t : Nat} (m : Nega N (ZMod t)) : (msgCoeffs m).length = N := List.length_ofFn
theorem msgCoeffs_lt {N t : Nat} [NeZero t] (m : Nega N (ZMod t)) : ∀ x ∈ msgCoeffs m, x < t := by
  intro x hx
  obtain ⟨j, rfl⟩ := List.mem_ofFn.1 hx
  exact ZMod.val_lt _
theorem msgCoeffs_getD {N t : Nat} (m : Nega N (ZMod t)) (j : Nat) : (msgCoeffs m).getD j 0 = (coeff m j).val := by
  unfold msgCoeffs coeff
  by_cases h : j < N
  · rw [dif_pos h, List.getD_eq_getElem _ _ (by simpa using h), List.getElem_ofFn]
  · rw [dif_neg h, List.getD_eq_default _ _ (by simpa using h), ZMod.val_zero]

/-- The message with the given coefficients. -/
def msgOf (N t : Nat) (v : List Nat) : Nega N (ZMod t) := ofFn fun j => (v.getD j 0 : ZMod t)

theorem padTo_length (N : Nat) (v : List Nat) : (padTo N v).length = N := by simp [padTo]
theorem padTo_of_length {N : Nat} {v : List Nat} (h : v.length = N) : padTo N v = v := by
  apply List.ext_getElem
  · simp [padTo, h]
  · intro i h1 h2; simp [padTo, h2]
theorem padTo_lt {N t : Nat} (ht : 0 < t) {v : List Nat} (h : ∀ x ∈ v, x < t) : ∀ x ∈ padTo N v, x < t := by
  intro x hx
  obtain ⟨i, -, rfl⟩ := List.mem_map.1 hx
  by_cases hi : i < v.length
  · rw [List.getD_eq_getElem _ _ hi]; exact h _ (List.getElem_mem hi)
  · rw [List.getD_eq_default _ _ (by omega)]; exact ht
theorem padTo_eq_tab (N : Nat) (v : List Nat) : padTo N v = tab N fun i => v.getD i 0 := rfl

theorem msgCoeffs_msgOf {N t : Nat} {v : List Nat} (ht : 0 < t) (h : ∀ x ∈ v, x < t) : msgCoeffs (msgOf N t v) = padTo N v := by
  apply List.ext_getElem
  · simp [msgCoeffs, padTo]
  · intro i h1 h2
    have : v.getD i 0 < t := by
      have := padTo_lt ht h (N := i + 1) (v.getD i 0) (List.mem_map.2 ⟨i, by simp, rfl⟩)
      exact this
    simp only [msgCoeffs, List.getElem_ofFn, padTo, List.getElem_map, List.getElem_range]
    show ((v.getD i 0 : Nat) : ZMod t).val = _
    rw [ZMod.val_natCast, Nat.mod_eq_of_lt this]

/-! ## Conversions from small values -/

theorem tryFromU64_full {b : Build} {n : Nat} {c : Context} {vt : Bool} (h : c.WF b n) {v : List Nat} (hv : v.length = c.degree) (h64 : ∀ x ∈ v, x < 2 ^ 64)
    (hQ : ∀ x ∈ v, x < c.modulus) : tryFromU64 v c vt = some (.ok (enc c .powerBasis vt (ofNats c v))) := by
  by_cases hne : v.length = c.moduli.length * c.degree
  · have hdeg : 0 < c.degree := by rw [h.level.degree]; positivity
    have h1 : c.moduli.length = 1 := by
      rw [hv] at hne
      exact Nat.eq_of_mul_eq_mul_right hdeg (by omega)
    have hops : c.ops.length = 1 := by rw [← h1, h.level.moduli, List.length_map]
    obtain ⟨op, hop⟩ := List.length_eq_one_iff.1 hops
    have hm : c.moduli = [op.p.p] := by rw [h.level.moduli, hop]; rfl
    have hmod : c.modulus = op.p.p := by rw [h.modulus_eq, hm]; simp
    have key : (enc c .powerBasis vt (ofNats c v)).toU64 = v := by
      unfold toU64
      show (c.ops.map fun op => pbRow (ofNats c v) op.p.p).flatten = v
      rw [List.map_congr_left (g := fun op => tab c.degree fun j => v.getD j 0 % op.p.p) (fun op hop => pbRow_ofNats h hop v), hop]
      simp only [List.map_cons, List.map_nil, List.flatten_cons, List.flatten_nil, List.append_nil]
      rw [← hmod]
      apply List.ext_getElem
      · rw [length_tab, hv]
      · intro i g1 g2
        simp only [tab, List.getElem_map, List.getElem_range, List.getD_eq_getElem v 0 g2]
        exact Nat.mod_eq_of_lt (hQ _ (List.getElem_mem g2))
    have := tryFromU64_rows (vt := vt) (vt' := vt) h (ofNats c v)
    rwa [key] at this
  · exact tryFromU64_short h hv.le hne h64

namespace ParWF
variable {b : Build} {n : Nat} {par : BfvParameters} {i : Nat} {l : ContextLevel}

theorem t_pos (hw : ParWF b n par) : 2 ≤ par.plaintext.value := by
  rcases hw.plaintext with ⟨m, -, h, -⟩ | ⟨h, -⟩ <;> omega

theorem ctxWF (hw : ParWF b n par) (hl : par.levels[i]? = some l) : l.ctx.WF b n ∧ l.ctx.moduli = par.moduli.take (par.moduli.length - i) ∧ l.ctx.degree = par.degree := by
  obtain ⟨pc, -, h⟩ := hw.levels
  have h1 := h i l hl
  obtain ⟨n', e, h2, h3⟩ := Context.new_inv hw.ok h1.bridge.ctx
  rw [hw.degree] at e
  obtain rfl := Nat.pow_right_injective (le_refl 2) e
  rw [h1.ctx]
  exact ⟨h2, h3, by rw [h2.level.degree, hw.degree]⟩

theorem level_lt (hw : ParWF b n par) (hl : par.levels[i]? = some l) : i < par.moduli.length := by
  rw [← hw.length]
  exact (List.getElem?_eq_some_iff.1 hl).1

theorem modulusAt_eq (hw : ParWF b n par) (hl : par.levels[i]? = some l) : l.ctx.modulus = par.modulusAt i := by
  obtain ⟨h1, h2, -⟩ := hw.ctxWF hl
  rw [h1.modulus_eq, h2]; rfl

theorem contextAtLevel_iff {c : Context} : par.contextAtLevel i = Res.ok c ↔ ∃ l, par.levels[i]? = some l ∧ l.ctx = c := by
  unfold BfvParameters.contextAtLevel
  cases h : par.levels[i]? with
  | none =>
    refine ⟨fun h => ?_, fun ⟨l, h, _⟩ => by cases h⟩
    simp only [Res.bind_eq_ok] at h
    obtain ⟨a, -, h⟩ := h
    exact absurd h Res.err_ne_ok
  | some l => simp [Res.ok_inj]

theorem exists_level (hw : ParWF b n par) (hi : i < par.moduli.length) : ∃ l, par.levels[i]? = some l :=
  ⟨_, List.getElem?_eq_getElem (by rw [hw.length]; exact hi)⟩

end ParWF

namespace Plaintext
variable {b : Build} {n : Nat} {par : Par} {i : Nat} {l : ContextLevel} {pt : Plaintext}

theorem elem_eq_of_vals {c : Context} [NeZero c.modulus] {f : c.Elem} {v : List Nat} (h : (List.ofFn fun j : Fin c.degree => (f j).val) = v) : f = ofNats c v := by
  funext j
  have : v.getD j 0 = (f j).val := by
    rw [← h, List.getD_eq_getElem _ _ (by simp), List.getElem_ofFn]
  show f j = ((v.getD j 0 : Nat) : ZMod c.modulus)
  rw [this, ZMod.natCast_zmod_val]

theorem vals_ofNats {c : Context} {v : List Nat} (hv : v.length = c.degree) (hlt : ∀ x ∈ v, x < c.modulus) :
    (List.ofFn fun j : Fin c.degree => (ofNats c v j).val) = v := by
  apply List.ext_getElem
  · simp [hv]
  · intro i h1 h2
    rw [List.getElem_ofFn]
    show ((v.getD i 0 : Nat) : ZMod c.modulus).val = _
    rw [List.getD_eq_getElem _ _ h2, ZMod.val_natCast, Nat.mod_eq_of_lt (hlt _ (List.getElem_mem h2))]

theorem toBigUint_enc {c : Context} (h : c.WF b n) (f : c.Elem) {vt : Bool} : (enc c .powerBasis vt f).toBigUint = some (List.ofFn fun j : Fin c.degree => (f j).val) :=
  toBigUint_rows h f rfl rfl

/-- A plaintext that holds `m` is the representation of `m`. -/
theorem Holds.enc (hw : ParWF b n par.toBfvParameters) {m : par.Msg} (h : pt.Holds par i m) :
    ∃ l, par.levels[i]? = some l ∧ pt.polyNtt = Fhe.enc l.ctx .ntt pt.polyNtt.vt (ofNats l.ctx (msgCoeffs m)) ∧ ∀ x ∈ msgCoeffs m, x < l.ctx.modulus := by
  obtain ⟨l, hl, hc⟩ := ParWF.contextAtLevel_iff.1 h.ctx
  obtain ⟨h1, -, h2⟩ := hw.ctxWF hl
  have := h1.neZero
  obtain ⟨f, hf⟩ := exists_enc h1 hc.symm h.valid
  have hc := h.coeffs
  rw [hf, nttToPowerBasis_enc h1, Option.bind_eq_bind, Option.bind_some, toBigUint_enc h1, Option.some.injEq] at hc
  refine ⟨l, hl, ?_, ?_⟩
  · rw [← elem_eq_of_vals hc]; exact hf
  · rw [← hc]
    intro x hx
    obtain ⟨j, rfl⟩ := List.mem_ofFn.1 hx
    exact ZMod.val_lt _

theorem holds_of_enc (hw : ParWF b n par.toBfvParameters) {m : par.Msg} (hp : pt.par = par) (hl : par.levels[i]? = some l) {vt : Bool}
    (h : pt.polyNtt = Fhe.enc l.ctx .ntt vt (ofNats l.ctx (msgCoeffs m))) (hlt : ∀ x ∈ msgCoeffs m, x < l.ctx.modulus) : pt.Holds par i m := by
  obtain ⟨h1, -, h2⟩ := hw.ctxWF hl
  refine ⟨hp, ParWF.contextAtLevel_iff.2 ⟨l, hl, by rw [h]; rfl⟩, by rw [h]; exact valid_enc h1 _, ?_⟩
  rw [h, nttToPowerBasis_enc h1, Option.bind_eq_bind, Option.bind_some, toBigUint_enc h1, vals_ofNats (by rw [length_msgCoeffs, h2]) hlt]

theorem level_eq (hw : ParWF b n par.toBfvParameters) (hp : pt.par = par) (hl : par.levels[i]? = some l) (hc : pt.polyNtt.ctx = l.ctx) : pt.level = some i := by
  obtain ⟨-, h2, -⟩ := hw.ctxWF hl
  have := hw.level_lt hl
  unfold level
  rw [hp, hc, h2, List.length_take, Nat.min_eq_left (by omega), subU_eq (by omega)]
  congr 1; omega

/-- The coefficients of a plaintext. -/
def wrap (par : Par) (v : List Nat) : PlaintextCoefficients := if par.plaintext.small.isSome then .small v else .large v

theorem mapM_toU64 {v : List Nat} (h : ∀ x ∈ v, x < 2 ^ 64) : v.mapM toU64Unwrap = some v := by
  induction v with
  | nil => rfl
  | cons a v ih =>
    rw [List.mapM_cons, ih (fun x hx => h x (List.mem_cons_of_mem _ hx)), toU64Unwrap, check_eq (h a (by simp))]; rfl

theorem first_row {c : Context} (h : c.WF b n) (f : c.Elem) {q : Nat} (hq : c.moduli.head? = some q) {vt : Bool} :
    prefixOf (Fhe.enc c .powerBasis vt f).toU64 c.degree = some (pbRow f q) := by
  unfold prefixOf toU64
  rw [h.level.moduli] at hq
  show (check (c.degree ≤ (c.ops.map fun op => pbRow f op.p.p).flatten.length)).bind (fun _ => some ((c.ops.map fun op => pbRow f op.p.p).flatten.take c.degree)) = _
  cases hops : c.ops with
  | nil => rw [hops] at hq; simp at hq
  | cons op ops =>
    rw [hops] at hq
    obtain rfl : op.p.p = q := by simpa using hq
    rw [List.map_cons, List.flatten_cons, check_eq (by rw [List.length_append, length_pbRow]; omega), Option.bind_some,
      List.take_append_of_le_length (by rw [length_pbRow]), List.take_of_length_le (by rw [length_pbRow])]

/-- Coefficients, for any polynomial of a level: the fast path reduces the residues modulo the first ciphertext modulus. -/
theorem coefficients_fast (hw : ParWF b n par.toBfvParameters) (hp : pt.par = par) (hl : par.levels[i]? = some l) {vt : Bool} {f : l.ctx.Elem}
    (h : pt.polyNtt = Fhe.enc l.ctx .ntt vt f) {m : Modulus} (hm : par.plaintext.small = some m) {q : Nat} (hq : par.moduli.head? = some q) (hlt : par.plaintext.value < q) :
    pt.coefficients = some (.small ((pbRow f q).map (· % par.plaintext.value))) := by
  obtain ⟨h1, h2, h3⟩ := hw.ctxWF hl
  have hlen := hw.level_lt hl
  have hq' : l.ctx.moduli.head? = some q := by rw [h2, List.head?_take, if_neg (by omega), hq]
  obtain ⟨m', g1, g2, g3⟩ | ⟨-, g3⟩ := hw.plaintext
  swap
  · rw [g3] at hm; cases hm
  obtain rfl : m' = m := by rw [g3] at hm; simpa using hm
  obtain ⟨mw, mp, -⟩ := Modulus.WF_of_new g1
  have hqlt : q < 2 ^ 62 := by
    have hmem : q ∈ par.moduli := List.mem_of_mem_head? (by rw [hq]; rfl)
    have := hw.moduli.range q hmem
    omega
  unfold coefficients
  rw [h, hp, nttToPowerBasis_enc h1]
  simp only [Option.bind_eq_bind, Option.bind_some, g3]
  rw [if_pos (by unfold fitsFirst; show (match l.ctx.moduli.head? with | some q => decide (m'.p < q) | none => false) = true; rw [hq', mp]; simpa using hlt)]
  rw [← h3, first_row h1 f hq', Option.bind_some, Modulus.reduceVec_eq mw, Option.bind_some, mp]
  · rfl
  · intro x hx
    have := pbRow_lt (by omega : 0 < q) f x hx
    omega

theorem coefficients_slow (hw : ParWF b n par.toBfvParameters) (hp : pt.par = par) (hl : par.levels[i]? = some l) {vt : Bool} {f : l.ctx.Elem}
    (h : pt.polyNtt = Fhe.enc l.ctx .ntt vt f) (hq : par.plaintext.small = none ∨ ∀ q, par.moduli.head? = some q → q ≤ par.plaintext.value) :
    pt.coefficients = some (wrap par ((List.ofFn fun j : Fin l.ctx.degree => (f j).val).map (· % par.plaintext.value))) := by
  obtain ⟨h1, h2, h3⟩ := hw.ctxWF hl
  have hlen := hw.level_lt hl
  have ht := hw.t_pos
  have hred : ∀ v, par.plaintext.reduceVec v = some (v.map (· % par.plaintext.value)) := by
    intro v
    unfold PlaintextModulus.reduceVec
    rw [check_eq (Or.inl (by omega))]; rfl
  unfold coefficients wrap
  rw [h, hp, nttToPowerBasis_enc h1]
  simp only [Option.bind_eq_bind, Option.bind_some]
  cases hs : par.plaintext.small with
  | none =>
    simp only [toBigUint_enc h1, hred, Option.bind_some]; rfl
  | some m =>
    obtain ⟨m', g1, g2, g3⟩ | ⟨-, g3⟩ := hw.plaintext
    swap
    · rw [g3] at hs; cases hs
    obtain rfl : m' = m := by rw [g3] at hs; simpa using hs
    obtain ⟨mw, mp, -⟩ := Modulus.WF_of_new g1
    have hq' : ∀ q, par.moduli.head? = some q → q ≤ par.plaintext.value := by
      rcases hq with hq | hq
      · rw [hs] at hq; cases hq
      · exact hq
    have hf : fitsFirst m' l.ctx.moduli = false := by
      unfold fitsFirst
      rw [h2, List.head?_take, if_neg (by omega)]
      cases hh : par.moduli.head? with
      | none => rfl
      | some q => simpa [mp] using hq' q hh
    have hf' : fitsFirst m' (Fhe.enc l.ctx .ntt vt f).ctx.moduli = false := hf
    simp only [hf', Bool.false_eq_true, if_false, toBigUint_enc h1, hred, Option.bind_some]
    rw [mapM_toU64]
    · rfl
    · intro x hx
      obtain ⟨y, -, rfl⟩ := List.mem_map.1 hx
      have := Nat.mod_lt y (show par.plaintext.value > 0 by omega)
      omega

theorem map_mod_eq {v : List Nat} {t : Nat} (h : ∀ x ∈ v, x < t) : v.map (· % t) = v := by
  conv_rhs => rw [← List.map_id v]
  exact List.map_congr_left fun x hx => Nat.mod_eq_of_lt (h x hx)

/-- The coefficients of a plaintext with reduced coefficients. -/
theorem coefficients_eq (hw : ParWF b n par.toBfvParameters) (hp : pt.par = par) (hl : par.levels[i]? = some l) {vt : Bool} {v : List Nat} (hv : v.length = par.degree)
    (hlt : ∀ x ∈ v, x < par.plaintext.value) (hQ : ∀ x ∈ v, x < l.ctx.modulus)
    (h : pt.polyNtt = Fhe.enc l.ctx .ntt vt (ofNats l.ctx v)) : pt.coefficients = some (wrap par v) := by
  obtain ⟨h1, h2, h3⟩ := hw.ctxWF hl
  have hlen := hw.level_lt hl
  by_cases hc : par.plaintext.small = none ∨ ∀ q, par.moduli.head? = some q → q ≤ par.plaintext.value
  · rw [coefficients_slow hw hp hl h hc, vals_ofNats (by rw [hv, h3]) hQ, map_mod_eq hlt]
  · push Not at hc
    obtain ⟨c1, q, c2, c3⟩ := hc
    obtain ⟨m, hm⟩ := Option.ne_none_iff_exists'.1 c1
    rw [coefficients_fast hw hp hl h hm c2 c3, wrap, hm]
    have hq' : l.ctx.moduli.head? = some q := by rw [h2, List.head?_take, if_neg (by omega), c2]
    obtain ⟨op, hop, rfl⟩ : ∃ op ∈ l.ctx.ops, op.p.p = q := by
      have : q ∈ l.ctx.moduli := List.mem_of_mem_head? (by rw [hq']; rfl)
      rw [h1.level.moduli] at this
      simpa using this
    rw [pbRow_ofNats h1 hop]
    congr 3
    · apply List.ext_getElem
      · simp [hv, h3]
      · intro i g1 g2
        simp only [tab, List.getElem_map, List.getElem_range, List.getD_eq_getElem v 0 g2]
        have := hlt _ (List.getElem_mem g2)
        rw [Nat.mod_eq_of_lt (Nat.mod_lt_of_lt this), Nat.mod_eq_of_lt (by omega)]

theorem Holds.coefficients (hw : ParWF b n par.toBfvParameters) {m : par.Msg} (h : pt.Holds par i m) : pt.coefficients = some (wrap par (msgCoeffs m)) := by
  have ht := hw.t_pos
  have : NeZero par.plaintext.value := ⟨by omega⟩
  obtain ⟨l, hl, h1, h2⟩ := h.enc hw
  exact coefficients_eq hw h.par_eq hl (length_msgCoeffs m) (msgCoeffs_lt m) h2 h1

/-! ## Scaling -/

theorem ofNats_delta {c : Context} [NeZero c.modulus] {t : Nat} (hcop : t.Coprime c.modulus) {d : c.Elem} (hd : d * C (t : ZMod c.modulus) = -1) (v : List Nat) :
    ofNats c (v.map fun x => x * (c.modulus % t) % t) * d = ofNats c (v.map fun x => c.modulus * x / t) := by
  have hu : IsUnit (t : ZMod c.modulus) := (ZMod.isUnit_iff_coprime t c.modulus).2 hcop
  obtain ⟨u, hu⟩ := hu
  have hinj : ∀ f g : c.Elem, f * C (t : ZMod c.modulus) = g * C (t : ZMod c.modulus) → f = g := by
    intro f g h
    have := congrArg (· * C (↑u⁻¹ : ZMod c.modulus)) h
    simpa only [mul_assoc, ← map_mul, ← hu, Units.mul_inv, map_one, mul_one] using this
  apply hinj
  rw [mul_assoc, hd, mul_neg_one]
  funext j
  rw [Nega.neg_apply, mul_comm, C_mul_apply]
  show -(((v.map fun x => x * (c.modulus % t) % t).getD j 0 : Nat) : ZMod c.modulus) = (t : ZMod c.modulus) * (((v.map fun x => c.modulus * x / t).getD j 0 : Nat) : ZMod c.modulus)
  by_cases h : j.val < v.length
  · rw [List.getD_eq_getElem _ _ (by simpa using h), List.getD_eq_getElem _ _ (by simpa using h), List.getElem_map, List.getElem_map]
    have e := Nat.div_add_mod (c.modulus * v[j.val]) t
    have e2 : v[j.val] * (c.modulus % t) % t = c.modulus * v[j.val] % t := by rw [mul_comm, Nat.mod_mul_mod]
    rw [e2, neg_eq_iff_add_eq_zero, ← Nat.cast_mul, ← Nat.cast_add, add_comm, e, Nat.cast_mul, ZMod.natCast_self, zero_mul]
  · rw [List.getD_eq_default _ _ (by simpa using h), List.getD_eq_default _ _ (by simpa using h)]
    simp

theorem coprime_modulus (hw : ParWF b n par.toBfvParameters) (hl : par.levels[i]? = some l) : par.plaintext.value.Coprime l.ctx.modulus := by
  obtain ⟨h1, h2, h3⟩ := hw.ctxWF hl
  rw [h1.modulus_eq, h2]
  exact ParamsBuilder.coprime_prod fun m hm => hw.moduli.coprime m (List.mem_of_mem_take hm)

theorem toPoly_eq (hw : ParWF b n par.toBfvParameters) (hl : par.levels[i]? = some l) (hQt : par.plaintext.value ≤ l.ctx.modulus) {m : par.Msg} (h : pt.Holds par i m) :
    pt.toPoly = some (Fhe.enc l.ctx .ntt false (ofNats l.ctx ((msgCoeffs m).map fun x => l.ctx.modulus * x / par.plaintext.value))) := by
  have ht := hw.t_pos
  have : NeZero par.plaintext.value := ⟨by omega⟩
  obtain ⟨h1, h2, h3⟩ := hw.ctxWF hl
  have := h1.neZero
  obtain ⟨l', hl', hp, -⟩ := h.enc hw
  obtain rfl : l = l' := by rw [hl] at hl'; simpa using hl'
  obtain ⟨pc, -, hlev⟩ := hw.levels
  have hL := hlev i l hl
  obtain ⟨d, hd1, hd2⟩ := hL.bridge.delta
  have hqm := hL.bridge.qModT
  have hd : ∃ d : l.ctx.Elem, l.cp.delta = Fhe.enc l.ctx .nttShoup true d ∧ d * C (par.plaintext.value : ZMod l.ctx.modulus) = -1 := by
    have hc := hL.ctx
    rw [hc]; exact ⟨d, hd1, hd2⟩
  clear hd1 hd2 d
  obtain ⟨d, hd1, hd2⟩ := hd
  rw [← hL.ctx] at hqm
  have hlevel : pt.level = some i := level_eq hw h.par_eq hl (by rw [hp]; rfl)
  unfold toPoly
  rw [hlevel]
  simp only [Option.bind_eq_bind, Option.bind_some]
  have hcl : pt.par.contextLevelAt i = Res.ok l := by
    unfold BfvParameters.contextLevelAt
    rw [h.par_eq, hl]
  rw [hcl, Res.unwrap_ok, Option.bind_some, h.coefficients hw, Option.bind_some, h.par_eq]
  have key : scaledPoly par l (wrap par (msgCoeffs m)) =
      some (Fhe.enc l.ctx .powerBasis false (ofNats l.ctx ((msgCoeffs m).map fun x => x * (l.ctx.modulus % par.plaintext.value) % par.plaintext.value))) := by
    unfold scaledPoly wrap
    cases hs : par.plaintext.small with
    | none =>
      simp only [Option.isSome_none, Bool.false_eq_true, if_false, PlaintextModulus.scalarMulVec]
      rw [check_eq (Or.inl (by omega))]
      simp only [Option.bind_eq_bind, Option.bind_some, Option.pure_def]
      rw [hqm, tryFromBigUint_eq h1 (by rw [List.length_map, length_msgCoeffs, h3])]; rfl
    | some mt =>
      obtain ⟨m', g1, g2, g3⟩ | ⟨-, g3⟩ := hw.plaintext
      swap
      · rw [g3] at hs; cases hs
      obtain rfl : m' = mt := by rw [g3] at hs; simpa using hs
      obtain ⟨mw, mp, -⟩ := Modulus.WF_of_new g1
      have hmod : ∀ x, x % par.plaintext.value < par.plaintext.value := fun x => Nat.mod_lt _ (by omega)
      simp only [Option.isSome_some, if_true, toU64Unwrap]
      rw [check_eq (by have := hmod l.ctx.modulus; omega)]
      simp only [Option.bind_eq_bind, Option.bind_some, Option.pure_def]
      have hlt : ∀ x ∈ msgCoeffs m, x < 2 ^ 64 := fun x hx => by have := msgCoeffs_lt m x hx; omega
      rw [Modulus.scalarMulVec_eq mw hlt (by rw [hqm, mp]; exact hmod _), Option.bind_some, hqm, mp, tryFromU64_full h1 (by rw [List.length_map, length_msgCoeffs, h3])]
      · rfl
      · intro x hx; obtain ⟨y, -, rfl⟩ := List.mem_map.1 hx; have := hmod (y * (l.ctx.modulus % par.plaintext.value)); omega
      · intro x hx; obtain ⟨y, -, rfl⟩ := List.mem_map.1 hx; have := hmod (y * (l.ctx.modulus % par.plaintext.value)); omega
  rw [key, Option.bind_some, intoNtt_enc h1, Option.bind_some, hd1, mulAssignShoup_enc h1, ofNats_delta (coprime_modulus hw hl) hd2]
  rfl

end Plaintext
end Fhe
