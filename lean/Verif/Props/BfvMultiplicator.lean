import Verif.Lemmas.BfvMultiplicator
import Verif.Props.BfvKeys
/-!
# Property C39: multiplication strategies
-/
namespace Fhe.Props
open Nega Poly ParamsBuilder Ciphertext

variable {b : Build} {par : Par} {st : ParamsBuilder} {s : IntPoly par.degree} {i j e : Nat} {ct ct' : Ciphertext} {m m' : par.Msg} {v v' : IntPoly par.degree} {σ : MulStrategy} {ctx : Context}
  {mp : Multiplicator} {rk : RelinearizationKey}

/-- C39: the constructor accepts every strategy with nonzero denominators and a basis of at most 64 moduli that the constructor of contexts accepts. -/
theorem C39_strategy_new (hb : b.OK) (h : build b st = Res.ok par.toBfvParameters) (h64 : par.moduli.length ≤ 64) (hi : i < par.moduli.length) {mulCtx : Context}
    (hc : Context.new b σ.basis par.degree = some (.ok mulCtx)) (h64' : σ.basis.length ≤ 64) (hl : σ.lhsDen ≠ 0) (hr : σ.rhsDen ≠ 0) (hp : σ.postDen ≠ 0) :
    ∃ mp, σ.make b i par = Res.ok mp ∧ mp.mulCtx = mulCtx := by
  obtain ⟨n, hw, -⟩ := build_inv hb h
  obtain ⟨l, ha⟩ := AtLevel.ofLt (par := par) hw hi
  exact MulStrategy.make_ok hw ha hc hl hr hp (by have := ha.length; omega) h64'

/-- C39: a sound strategy multiplies: two ciphertexts of two parts, of the level of the multiplicator, give one of three parts that encrypts
the product of the messages.  With `N` the product of the three numerators, `A`, `B` the centered parts of the operands, `EA`, `EB` and `E` the
rounding errors of the three scalings, and phases written as numbers, the noise `v''` satisfies
`N Q v'' = N (Q (M v' + M' v) + v v') + t² (postNum (lhsNum A EB + rhsNum B EA + EA EB) + lhsDen rhsDen E)`. -/
theorem C39_strategy (hb : b.OK) (h : build b st = Res.ok par.toBfvParameters) (hctx : par.contextAtLevel i = Res.ok ctx) (hm : σ.make b i par = Res.ok mp) (hs : σ.Sound par i ctx mp.mulCtx)
    (h1 : ct.Encrypts par s i m v) (h2 : ct'.Encrypts par s i m' v') (hl1 : ct.c.length = 2) (hl2 : ct'.c.length = 2) :
    ∃ (r : Ciphertext) (v'' M M' : IntPoly par.degree) (A B EA EB E : List (IntPoly par.degree)), mp.multiply ct ct' = Res.ok r ∧ r.Encrypts par s i (m * m') v'' ∧ r.c.length = 3 ∧ r.seed = none ∧
      (∀ j, ((M j : Int) : ZMod par.plaintext.value) = m j) ∧ (∀ j, ((M' j : Int) : ZMod par.plaintext.value) = m' j) ∧
      (A.length = 2 ∧ ∀ x ∈ A, x.Bounded (par.modulusAt i * (2 ^ 55 + 1) / 2 ^ 56)) ∧ (B.length = 2 ∧ ∀ x ∈ B, x.Bounded (par.modulusAt i * (2 ^ 55 + 1) / 2 ^ 56)) ∧
      C (par.plaintext.value : Int) * phase s A = C (par.modulusAt i : Int) * M + v ∧ C (par.plaintext.value : Int) * phase s B = C (par.modulusAt i : Int) * M' + v' ∧
      (EA.length = 2 ∧ ∀ e ∈ EA, e.Bounded ((2 ^ 61 + 1) * σ.lhsDen / 2 ^ 62)) ∧ (EB.length = 2 ∧ ∀ e ∈ EB, e.Bounded ((2 ^ 61 + 1) * σ.rhsDen / 2 ^ 62)) ∧
      (E.length = 3 ∧ ∀ e ∈ E, e.Bounded ((2 ^ 61 + 1) * σ.postDen / 2 ^ 62)) ∧
      (σ.lhsNum = σ.lhsDen → phase s EA = 0) ∧ (σ.rhsNum = σ.rhsDen → phase s EB = 0) ∧
      C ((σ.postNum * σ.lhsNum * σ.rhsNum : Nat) : Int) * (C (par.modulusAt i : Int) * v'') =
        C ((σ.postNum * σ.lhsNum * σ.rhsNum : Nat) : Int) * (C (par.modulusAt i : Int) * (M * v' + M' * v) + v * v') +
        C (par.plaintext.value : Int) * (C (par.plaintext.value : Int) * (C (σ.postNum : Int) * (C (σ.lhsNum : Int) * phase s A * phase s EB + C (σ.rhsNum : Int) * phase s B * phase s EA + phase s EA * phase s EB) +
          C ((σ.lhsDen * σ.rhsDen : Nat) : Int) * phase s E)) := by
  obtain ⟨n, hw, -⟩ := build_inv hb h
  obtain ⟨l, hl, rfl⟩ := ParWF.contextAtLevel_iff.1 hctx
  have ha := AtLevel.ofGet hw hl
  obtain ⟨hf, hrk, hms, -⟩ := MulStrategy.make_inv hw ha hm hs
  obtain ⟨r, v'', M, M', A, B, EA, EB, E, e1, e2, e3, e4, e5, e6, ⟨a1, a2⟩, ⟨b1, b2⟩, e7, e8, ⟨c1, c2⟩, ⟨d1, d2⟩, ⟨f1, f2⟩, e9⟩ :=
    Multiplicator.multiply_eq hw ha hf hs.lhs hs.rhs hs.factors hs.fits h1 h2 hl1 hl2 hrk hms
  have key : ∀ {d : Nat} {F : List (IntPoly par.degree)}, (∀ e ∈ F, ∀ j, 2 ^ 62 * |e j| ≤ (2 ^ 61 + 1) * (d : Int)) → ∀ e ∈ F, e.Bounded ((2 ^ 61 + 1) * d / 2 ^ 62) := by
    intro d F hF e he j
    have := hF e he j
    push_cast
    exact (Int.le_ediv_iff_mul_le (by norm_num)).2 (by rw [mul_comm]; exact this)
  exact ⟨r, v'', M, M', A, B, EA, EB, E, e1, e2, e3, e4, fun j => by rw [← e5]; rfl, fun j => by rw [← e6]; rfl, ⟨a1, fun x hx => (a2 x hx).bounded⟩, ⟨b1, fun x hx => (b2 x hx).bounded⟩, e7, e8,
    ⟨c1, key c2⟩, ⟨d1, key d2⟩, ⟨f1, key f2⟩, e9⟩

/-- C39: with relinearization enabled the multiplicator returns what relinearizing the product gives; with switching enabled, what
`switch_down` then gives. -/
theorem C39_steps {mp1 mp2 mp3 : Multiplicator} {r r1 : Ciphertext} (hrk : mp.rk = none) (hms : mp.modSwitch = false) (h : mp.multiply ct ct' = Res.ok r) (h1 : mp.enableRelinearization rk = Res.ok mp1)
    (h2 : rk.relinearizes r = Res.ok r1) (h3 : mp1.enableModSwitching = Res.ok mp2) (h4 : mp.enableModSwitching = Res.ok mp3) :
    mp1.multiply ct ct' = Res.ok r1 ∧ mp2.multiply ct ct' = r1.switchDown ∧ mp3.multiply ct ct' = r.switchDown := by
  have e1 : mp1 = { mp with rk := some rk } := by
    unfold Multiplicator.enableRelinearization at h1
    simp only [Res.bind_eq_ok] at h1
    obtain ⟨_, _, h1⟩ := h1
    split at h1
    · exact absurd h1 Res.err_ne_ok
    · rw [Res.pure_eq, Res.ok_inj] at h1; exact h1.symm
  have key : ∀ {mp mp' : Multiplicator}, mp.enableModSwitching = Res.ok mp' → mp' = { mp with modSwitch := true } := by
    intro mp mp' h
    unfold Multiplicator.enableModSwitching at h
    simp only [Res.bind_eq_ok] at h
    obtain ⟨_, _, _, _, h⟩ := h
    split at h
    · exact absurd h Res.err_ne_ok
    · rw [Res.pure_eq, Res.ok_inj] at h; exact h.symm
  have e0 : ({ mp with rk := none, modSwitch := false } : Multiplicator) = mp := by cases mp; simp_all
  have e2 : mp1 = { mp with rk := some rk, modSwitch := false } := by rw [e1]; cases mp; simp_all
  have g1 : mp1.multiply ct ct' = Res.ok r1 := by rw [e2]; exact Multiplicator.multiply_relin (by rw [e0]; exact h) h2
  have e3 : ({ mp1 with modSwitch := false } : Multiplicator) = mp1 := by rw [e2]
  have e4 : ({ mp with modSwitch := false } : Multiplicator) = mp := by cases mp; simp_all
  exact ⟨g1, by rw [key h3]; exact Multiplicator.multiply_switch (by rw [e3]; exact g1), by rw [key h4]; exact Multiplicator.multiply_switch (by rw [e4]; exact h)⟩

/-- C39: relinearization can be enabled exactly with a key for the level of the multiplicator — whatever the parameters of the key are —,
switching exactly above the last level. -/
theorem C39_enable (hb : b.OK) (h : build b st = Res.ok par.toBfvParameters) (hctx : par.contextAtLevel i = Res.ok ctx) (hm : mp.par = par ∧ mp.baseCtx = ctx) :
    (mp.enableRelinearization rk = Res.ok { mp with rk := some rk } ∨ ∃ e, mp.enableRelinearization rk = Res.err e) ∧
    ((∃ mp', mp.enableRelinearization rk = Res.ok mp') ↔ rk.ksk.ciphertextLevel = i) ∧
    (i + 1 < par.moduli.length → mp.enableModSwitching = Res.ok { mp with modSwitch := true }) ∧ (i + 1 = par.moduli.length → mp.enableModSwitching = Res.err (.math .noMoreContext)) := by
  obtain ⟨n, hw, -⟩ := build_inv hb h
  obtain ⟨l, hl, rfl⟩ := ParWF.contextAtLevel_iff.1 hctx
  have ha := AtLevel.ofGet hw hl
  have hpos := List.length_pos_of_ne_nil hw.ne_nil
  have hlt := ha.lt
  have hlen := ha.length
  have key : (rk.ksk.ciphertextLevel = i → mp.enableRelinearization rk = Res.ok { mp with rk := some rk }) ∧ (rk.ksk.ciphertextLevel ≠ i → ∃ e, mp.enableRelinearization rk = Res.err e) := by
    refine ⟨fun hk => Multiplicator.enableRelinearization_eq ha hm.1 hm.2 rk hk, fun hk => ?_⟩
    unfold Multiplicator.enableRelinearization
    rw [hm.1, hm.2]
    by_cases hlt' : rk.ksk.ciphertextLevel < par.moduli.length
    · obtain ⟨l', ha'⟩ := AtLevel.ofLt (par := par) hw hlt'
      have hlen' := ha'.length
      rw [ha'.contextAt, Res.ok_bind, if_pos (by
        intro hc
        rw [hc] at hlen'
        omega)]
      exact ⟨_, rfl⟩
    · obtain ⟨e, he⟩ := contextAtLevel_err (par := par) hw (t := rk.ksk.ciphertextLevel) (by omega)
      rw [he, Res.err_bind]
      exact ⟨e, rfl⟩
  obtain ⟨l', ha'⟩ := AtLevel.ofLt (par := par) hw (i := par.moduli.length - 1) (by omega)
  have hms : mp.enableModSwitching = if l'.ctx = l.ctx then Res.err (.math .noMoreContext) else Res.ok { mp with modSwitch := true } := by
    unfold Multiplicator.enableModSwitching BfvParameters.maxLevel
    rw [hm.1, hw.length, subU_eq (by omega), Res.lift_some, Res.ok_bind, ha'.contextAt, Res.ok_bind, hm.2]
    rfl
  refine ⟨?_, ⟨fun ⟨mp', h1⟩ => ?_, fun hk => ⟨_, key.1 hk⟩⟩, fun hi => ?_, fun hi => ?_⟩
  · by_cases hk : rk.ksk.ciphertextLevel = i
    · exact Or.inl (key.1 hk)
    · exact Or.inr (key.2 hk)
  · by_contra hk
    obtain ⟨e, he⟩ := key.2 hk
    rw [he] at h1
    exact absurd h1 Res.err_ne_ok
  · have hlen' := ha'.length
    rw [hms, if_neg (by intro hc; rw [hc] at hlen'; omega)]
  · obtain rfl : i = par.moduli.length - 1 := by omega
    obtain rfl := ha.unique ha'
    rw [hms, if_pos rfl]

/-- The noise of a product after relinearization. -/
def relinNoise (par : Par) (rk : RelinearizationKey) (i S V V' e : Nat) : Nat := mulNoise par i S 2 2 V V' + par.plaintext.value * rk.ksk.errorBound par S e

/-- C39: the default strategy.  When the search for roots of unity succeeds, `Multiplicator::default` returns a multiplicator for every
relinearization key, and this multiplies two ciphertexts of two parts into one of two parts; when not at the last level, switching can
be enabled, and then the result is at the next level. -/
theorem C39_default (hb : b.OK) (h : build b st = Res.ok par.toBfvParameters) (hcount : par.moduli.length ≤ 31) (hsum : par.moduli.sum ≤ 2 ^ 65) (hk : rk.IsFor par s i j e) :
    (b.Lucky → ∃ mp, Multiplicator.default b rk = Res.ok mp) ∧
    ∀ mp, Multiplicator.default b rk = Res.ok mp → ∀ {m m' : par.Msg} {v v' : IntPoly par.degree} {ct ct' : Ciphertext}, ct.Encrypts par s i m v → ct'.Encrypts par s i m' v' →
      ct.c.length = 2 → ct'.c.length = 2 → ∀ {S V V' : Nat}, s.Bounded S → v.Bounded V → v'.Bounded V' →
      ∃ (r : Ciphertext) (v'' : IntPoly par.degree), mp.multiply ct ct' = Res.ok r ∧ r.Encrypts par s i (m * m') v'' ∧ r.c.length = 2 ∧ r.seed = none ∧ v''.Bounded (relinNoise par rk i S V V' e) ∧
        (i + 1 < par.moduli.length → ∃ (mp' : Multiplicator) (r' : Ciphertext) (w : IntPoly par.degree) (q : Nat), mp.enableModSwitching = Res.ok mp' ∧ mp'.multiply ct ct' = Res.ok r' ∧
          r'.Encrypts par s (i + 1) (m * m') w ∧ r'.c.length = 2 ∧ par.moduli[par.moduli.length - 1 - i]? = some q ∧
          w.Bounded ((relinNoise par rk i S V V' e + par.plaintext.value * (q / 2 * geom (par.degree * S) 2)) / q)) := by
  obtain ⟨n, hw, -⟩ := build_inv hb h
  obtain ⟨l, ha, hc, hp, -⟩ := KeySwitchingKey.IsFor.pair hw hk
  obtain ⟨k1, k2⟩ := Multiplicator.default_inv hw hcount hsum ha (rk := rk) hp hk.level
  refine ⟨k2, fun mp hmp m m' v v' ct ct' h1 h2 hl1 hl2 S V V' hS hV hV' => ?_⟩
  obtain ⟨ext, hs, hrk, hms, hf⟩ := k1 mp hmp
  have hf0 : ({ mp with rk := none } : Multiplicator).Follows par.degree (MulStrategy.standard par i ext) par i l := ⟨hf.1, hf.2, hf.3, hf.4, hf.5, hf.6, hf.7, hf.8, hf.9⟩
  obtain ⟨r, v'', M, M', A, B, EA, EB, E, e1, e2, e3, e4, e5, e6, ⟨a1, a2⟩, ⟨b1, b2⟩, e7, e8, -, -, ⟨f1, f2⟩, e9, e10, e11⟩ :=
    Multiplicator.multiply_eq hw ha hf0 hs.lhs hs.rhs hs.factors hs.fits h1 h2 hl1 hl2 rfl hms
  have htp : (0 : Int) < par.plaintext.value := by
    rcases hw.plaintext with ⟨_, _, hp', _⟩ | ⟨hp', _⟩ <;> omega
  have e12 : C (par.modulusAt i : Int) * v'' = C (par.modulusAt i : Int) * (M * v' + M' * v) + v * v' + C (par.plaintext.value : Int) * phase s E := by
    rw [e9 rfl, e10 rfl] at e11
    simp only [MulStrategy.standard, mul_one, Nat.cast_one, map_one, one_mul, MulZeroClass.mul_zero, zero_add] at e11
    apply Nega.ext; intro k
    have this : C (par.plaintext.value : Int) * (C (par.modulusAt i : Int) * v'') =
      C (par.plaintext.value : Int) * (C (par.modulusAt i : Int) * (M * v' + M' * v) + v * v' + C (par.plaintext.value : Int) * phase s E) := by linear_combination e11
    replace this := congrFun this k
    rw [C_mul_apply, C_mul_apply, C_mul_apply, ← C_mul_apply] at this
    exact mul_left_cancel₀ htp.ne' this
  have hnoise := mulNoise_bounded ha.pos ⟨a1, fun x hx => (a2 x hx).bounded⟩ ⟨b1, fun x hx => (b2 x hx).bounded⟩ e7 e8 ⟨f1, fun e he k => by
    have := f2 e he k
    push_cast
    exact (Int.le_ediv_iff_mul_le (by norm_num)).2 (by rw [mul_comm]; exact this)⟩ e12 hS hV hV'
  obtain ⟨r', W, g1, g2, g3, g4, g5⟩ := RelinearizationKey.relinearizes_eq hw hk e2 e3
  have hmp' : ({ mp with rk := some rk, modSwitch := false } : Multiplicator) = mp := by cases mp; simp_all
  have hmp0 : ({ mp with rk := none, modSwitch := false } : Multiplicator) = { mp with rk := none } := by cases mp; simp_all
  have hmul : mp.multiply ct ct' = Res.ok r' := by
    rw [← hmp']
    exact Multiplicator.multiply_relin (by rw [hmp0]; exact e1) g1
  have hb1 := hnoise.add ((g5 S hS).C_mul (par.plaintext.value : Int))
  rw [Int.natAbs_natCast] at hb1
  refine ⟨r', _, hmul, g2, g3, by rw [g4, e4], hb1, fun hi => ?_⟩
  obtain ⟨w, u, q, q1, q2, q3, -, q4, q5⟩ := switchDown_bound hw g2 hi hS hb1
  have hen := (C39_enable (mp := mp) (rk := rk) hb h ha.contextAt ⟨hf.par_eq, hf.base⟩).2.2.1 hi
  refine ⟨_, w, u, q, hen, ?_, q2, by rw [q3, g3], q4, by rw [g3] at q5; exact q5⟩
  have hmp1 : ({ mp with modSwitch := false } : Multiplicator) = mp := by cases mp; simp_all
  rw [Multiplicator.multiply_switch (by rw [hmp1]; exact hmul), q1]

/-- C39, C48: on ciphertexts of valid polynomials a multiplicator with a sound strategy never panics.  It succeeds exactly when `validate_for`
accepts both operands, both are at its level and both have two parts. -/
theorem C39_strategy_rejects (hb : b.OK) (h : build b st = Res.ok par.toBfvParameters) (hctx : par.contextAtLevel i = Res.ok ctx) (hm : σ.make b i par = Res.ok mp) (hs : σ.Sound par i ctx mp.mulCtx)
    (hpar : ct.par.ptrEq par = true → ct.par = par) (hpar' : ct'.par.ptrEq par = true → ct'.par = par) (hv : ∀ p ∈ ct.c, p.Valid) (hv' : ∀ p ∈ ct'.c, p.Valid) :
    mp.multiply ct ct' ≠ Res.panic ∧ ((∃ r, mp.multiply ct ct' = Res.ok r) ↔ ct.validateFor par = Res.ok () ∧ ct'.validateFor par = Res.ok () ∧ ct.level = i ∧ ct'.level = i ∧ ct.c.length = 2 ∧ ct'.c.length = 2) := by
  obtain ⟨n, hw, -⟩ := build_inv hb h
  obtain ⟨l, hl, rfl⟩ := ParWF.contextAtLevel_iff.1 hctx
  have ha := AtLevel.ofGet hw hl
  obtain ⟨hf, hrk, hms, -⟩ := MulStrategy.make_inv hw ha hm hs
  by_cases hgood : ct.validateFor par = Res.ok () ∧ ct'.validateFor par = Res.ok () ∧ ct.level = i ∧ ct'.level = i ∧ ct.c.length = 2 ∧ ct'.c.length = 2
  · obtain ⟨g1, g2, g3, g4, g5, g6⟩ := hgood
    obtain ⟨f1, f2, f3, f4⟩ := (C48_validate hb h ct).2.1 g1
    obtain ⟨f1', f2', f3', f4'⟩ := (C48_validate hb h ct').2.1 g2
    obtain ⟨m, v, he⟩ := Ciphertext.exists_encrypts hw (0 : IntPoly par.degree) (hpar f1) f2 f3 f4 hv
    obtain ⟨m', v', he'⟩ := Ciphertext.exists_encrypts hw (0 : IntPoly par.degree) (hpar' f1') f2' f3' f4' hv'
    rw [g3] at he
    rw [g4] at he'
    obtain ⟨r, _, _, _, _, _, _, _, _, e1, -⟩ := Multiplicator.multiply_eq hw ha hf hs.lhs hs.rhs hs.factors hs.fits he he' g5 g6 hrk hms
    exact ⟨by rw [e1]; exact Res.noPanic_ok _, fun _ => ⟨g1, g2, g3, g4, g5, g6⟩, fun _ => ⟨r, e1⟩⟩
  · have : ∃ e, mp.multiply ct ct' = Res.err e := by
      unfold Multiplicator.multiply
      rw [hf.par_eq, hf.level]
      rcases Res.noPanic_iff.1 (C48_validate hb h ct).1 with ⟨⟨⟩, g1⟩ | ⟨e, g1⟩
      swap
      · exact ⟨e, by rw [g1, Res.err_bind]⟩
      rcases Res.noPanic_iff.1 (C48_validate hb h ct').1 with ⟨⟨⟩, g2⟩ | ⟨e, g2⟩
      swap
      · exact ⟨e, by rw [g1, Res.ok_bind, g2, Res.err_bind]⟩
      rw [g1, Res.ok_bind, g2, Res.ok_bind]
      by_cases h1 : ct.level = i
      swap
      · exact ⟨_, by rw [if_pos h1]⟩
      by_cases h2 : ct'.level = i
      swap
      · exact ⟨_, by rw [if_neg (by simpa using h1), if_pos h2]⟩
      rw [if_neg (by simpa using h1), if_neg (by simpa using h2)]
      match hc : ct.c, hc' : ct'.c with
      | [_, _], [_, _] => exact absurd ⟨g1, g2, h1, h2, by rw [hc]; rfl, by rw [hc']; rfl⟩ hgood
      | [], _ => exact ⟨_, rfl⟩
      | [_], _ => exact ⟨_, rfl⟩
      | _ :: _ :: _ :: _, _ => exact ⟨_, rfl⟩
      | [_, _], [] => exact ⟨_, rfl⟩
      | [_, _], [_] => exact ⟨_, rfl⟩
      | [_, _], _ :: _ :: _ :: _ => exact ⟨_, rfl⟩
    obtain ⟨e, he⟩ := this
    exact ⟨by rw [he]; exact Res.noPanic_err _, fun ⟨r, hr⟩ => absurd (he.symm.trans hr) Res.err_ne_ok, fun hg => absurd hg hgood⟩

theorem scalerRoom_le (moduli garner : List Nat) (num den : Nat) : Spec.scalerRoom moduli garner num den ≤ 2 * moduli.sum := by
  have key : ∀ moduli garner : List Nat, ((moduli.zip garner).map fun qg => if den ∣ num * qg.2 then 0 else qg.1).sum ≤ moduli.sum := by
    intro moduli
    induction moduli with
    | nil => simp
    | cons q l ih =>
      intro garner
      cases garner with
      | nil => simp
      | cons g gs =>
        have := ih gs
        simp only [List.zip_cons_cons, List.map_cons, List.sum_cons]
        split <;> omega
  have := key moduli garner
  unfold Spec.scalerRoom
  split <;> omega

/-- A strategy that scales the right operand by `P / Q` and the product by `t / P`, where `P` is the product of the added primes; it
multiplies the two encryptions of `exCipher`. -/
example : ∃ (par : Par) (s : IntPoly par.degree) (σ : MulStrategy) (ctx : Context) (mp : Multiplicator) (m m' : par.Msg) (ct ct' r : Ciphertext) (v'' : IntPoly par.degree),
    par.contextAtLevel 0 = Res.ok ctx ∧ σ.make luckyBuild 0 par = Res.ok mp ∧ σ.Sound par 0 ctx mp.mulCtx ∧ σ.rhsNum = 241 * 257 * 337 ∧ σ.rhsDen = 2115473 ∧
    msgCoeffs m = [1, 2, 16, 0, 0, 0, 0, 0] ∧ msgCoeffs m' = [5, 4, 3, 0, 0, 0, 0, 0] ∧ mp.multiply ct ct' = Res.ok r ∧ r.Encrypts par s 0 (m * m') v'' := by
  obtain ⟨par, sk, s, pt, pt', m, m', ct, ct', v, v', h, hd, ht, hm, hrel, hk, hs, e2, e2', em, em', f1, f1', f2, f2', f3, f3', f4, f4', f5, f6, h0, hvar⟩ := exCipher
  have hb := luckyBuild_ok
  obtain ⟨ctx, hctx, hnew, -⟩ := (C31_levels hb h 0).1 (by rw [hm]; decide)
  obtain ⟨-, -, -, hmod⟩ := Context.new_inv hb hnew
  have hsup : Supported luckyBuild [97, 113, 193, 241, 257, 337] 3 := by
    refine supported_sub luckyBuild_lucky (le_refl _) (by decide) (by decide) ?_
    intro q hq
    simp only [List.mem_cons, List.not_mem_nil, or_false] at hq
    rcases hq with rfl | rfl | rfl | rfl | rfl | rfl <;> norm_num
  obtain ⟨mc, hmc, hmm, -⟩ := Context.new_ok hb hsup
  have hmc' : Context.new luckyBuild [97, 113, 193, 241, 257, 337] par.degree = some (.ok mc) := by rw [hd]; exact hmc
  obtain ⟨mp, k1, k2⟩ := C39_strategy_new (σ := ⟨1, 1, 241 * 257 * 337, 2115473, 17, 241 * 257 * 337, [97, 113, 193, 241, 257, 337]⟩) hb h (i := 0) (by rw [hm]; decide) (by rw [hm]; decide) hmc'
    (by decide) (by decide) (by decide) (by decide)
  have hmod' : ctx.moduli = [97, 113, 193] := by rw [hmod, hm]; rfl
  have hs : MulStrategy.Sound ⟨1, 1, 241 * 257 * 337, 2115473, 17, 241 * 257 * 337, [97, 113, 193, 241, 257, 337]⟩ par 0 ctx mp.mulCtx := by
    refine ⟨by decide, by decide, by decide, by rw [h0, ht]; norm_num, by rw [hmod']; decide, by decide, (scalerRoom_le _ _ _ _).trans (by rw [hmod']; decide), (scalerRoom_le _ _ _ _).trans (by rw [hmod']; decide),
      (scalerRoom_le _ _ _ _).trans (by rw [k2, hmm]; decide), Or.inr ?_⟩
    rw [h0]
    exact ⟨17, by norm_num⟩
  obtain ⟨r, v'', _, _, _, _, _, _, _, g1, g2, -⟩ := C39_strategy hb h hctx k1 hs f2 f2' f4 f4'
  exact ⟨par, s, _, ctx, mp, m, m', ct, ct', r, v'', hctx, k1, hs, rfl, rfl, em, em', g1, g2⟩

/-- The two encryptions of `exCipher`, multiplied by the default strategy, decrypt to the product of the messages. -/
example : ∃ (par : Par) (sk : SecretKey) (m m' : par.Msg) (ct ct' : Ciphertext) (rk : RelinearizationKey) (mp : Multiplicator) (r : Ciphertext) (pt : Plaintext),
    msgCoeffs m = [1, 2, 16, 0, 0, 0, 0, 0] ∧ msgCoeffs m' = [5, 4, 3, 0, 0, 0, 0, 0] ∧ Multiplicator.default luckyBuild rk = Res.ok mp ∧ mp.multiply ct ct' = Res.ok r ∧ r.c.length = 2 ∧
    sk.tryDecrypt luckyBuild r = Res.ok pt ∧ pt.Holds par 0 (m * m') := by
  obtain ⟨par, sk, s, pt, pt', m, m', ct, ct', v, v', h, hd, ht, hm, hrel, hk, hs, e2, e2', em, em', f1, f1', f2, f2', f3, f3', f4, f4', f5, f6, h0, hvar⟩ := exCipher
  have hb := luckyBuild_ok
  have h64 : par.moduli.length ≤ 64 := by rw [hm]; decide
  obtain ⟨k, g1, g2, g3⟩ := (C41_new (i := 0) (j := 0) hb h h64 hk exPrg_ok (List.replicate 32 3) (rngs := fun _ => exRng) (fun _ => exRng_ok)).1 (by rw [hm]; decide) (le_refl _) (by rw [hm]; decide)
  obtain ⟨k1, k2⟩ := C39_default hb h hrel.count hrel.sum g2
  obtain ⟨mp, hmp⟩ := k1 luckyBuild_lucky
  obtain ⟨r, w, r1, r2, r3, r4, r5, -⟩ := k2 mp hmp f2 f2' f4 f4' hs f3 f3'
  obtain ⟨pt, k6, k7, -⟩ := C37_decrypt hb h hrel hk r2 (small_of_bounded r5 (by
    unfold relinNoise mulNoise mulHeight KeySwitchingKey.errorBound KeySwitchingKey.ratio
    rw [g3, g2.level, g2.keyLevel, h0, ht, hd, hm, hvar]
    decide))
  exact ⟨par, sk, m, m', ct, ct', k, mp, r, pt, em, em', hmp, r1, r3, k6, k7⟩

end Fhe.Props
