import Verif.Lemmas.InPlace
import Verif.Spec.InPlace
import Verif.Props.Robust
import Verif.Props.RqMore
/-!
# C81: an operation that fails leaves the object it works on unchanged
-/
namespace Fhe.Props
open Nega ParamsBuilder Ciphertext InPlace

variable {b : Build} {st : ParamsBuilder} {par : Par} {g : Prg} {ct rhs : Ciphertext} {i : Nat} {m : par.Msg}

/-! ## The operations in place do what the functions of the other files do -/

/-- C81: with its assignments made one after the other, every operation on a ciphertext ends with the result, the error or the panic that the other
theorems speak of, on any input and whatever a panic leaves behind. -/
theorem C81_agree (wreck : Poly .ntt) (ct rhs : Ciphertext) (pt : Plaintext) (k : RelinearizationKey) (target : Nat) :
    Matches switchDownIn ct ct.switchDown ∧ Matches (switchToLevelIn target) ct (ct.switchToLevel target) ∧
    Matches (addIn wreck rhs) ct (lift (ct.add rhs)) ∧ Matches (subIn wreck rhs) ct (lift (ct.sub rhs)) ∧
    Matches (addPlainIn wreck pt) ct (lift (ct.addPlain pt)) ∧ Matches (subPlainIn wreck pt) ct (lift (ct.subPlain pt)) ∧
    Matches (mulPlainIn wreck pt) ct (lift (ct.mulPlain pt)) ∧ Matches (k.relinearizesIn wreck) ct (k.relinearizes ct) :=
  ⟨switchDownIn_matches ct, switchToLevelIn_matches ct target, addIn_matches wreck ct rhs, subIn_matches wreck ct rhs, addPlainIn_matches wreck ct pt,
    subPlainIn_matches wreck ct pt, mulPlainIn_matches wreck ct pt, k.relinearizesIn_matches wreck ct⟩

/-- C81: the same for polynomials, multiplicators and builders of evaluation keys. -/
theorem C81_agree_more (wreck p : Poly .powerBasis) (t : Context) (mp : Multiplicator) (rk : RelinearizationKey) (eb : EvaluationKeyBuilder) (i : Nat) :
    Matches (Poly.switchDownIn wreck) p (math p.switchDown) ∧ Matches (Poly.switchDownToIn wreck t) p (math (p.switchDownTo t)) ∧
    Matches (Multiplicator.enableRelinearizationIn rk) mp (mp.enableRelinearization rk) ∧ Matches Multiplicator.enableModSwitchingIn mp mp.enableModSwitching ∧
    Matches (EvaluationKeyBuilder.enableExpansionIn i) eb (eb.enableExpansion i) ∧ Matches (EvaluationKeyBuilder.enableColumnRotationIn i) eb (eb.enableColumnRotation i) := by
  refine ⟨Poly.switchDownIn_matches wreck p, Poly.switchDownToIn_matches wreck p t, ?_, ?_, ?_, ?_⟩
  · unfold Multiplicator.enableRelinearizationIn Multiplicator.enableRelinearization
    refine matches_get_bind (matches_eval_bind fun a _ => ?_)
    by_cases h : a ≠ mp.baseCtx
    · rw [if_pos h, if_pos h]; exact matches_throw _ _
    · rw [if_neg h, if_neg h]; exact matches_ok rfl
  · unfold Multiplicator.enableModSwitchingIn Multiplicator.enableModSwitching
    rw [← bind_assoc]
    refine matches_get_bind (matches_eval_bind fun a _ => ?_)
    by_cases h : a = mp.baseCtx
    · rw [if_pos h, if_pos h]; exact matches_throw _ _
    · rw [if_neg h, if_neg h]; exact matches_ok rfl
  · unfold EvaluationKeyBuilder.enableExpansionIn EvaluationKeyBuilder.enableExpansion
    refine matches_get_bind ?_
    simp only
    by_cases h : i > Nat.log2 eb.sk.par.degree
    · rw [if_pos h, if_pos h]; exact matches_throw _ _
    · rw [if_neg h, if_neg h]; exact matches_ok rfl
  · unfold EvaluationKeyBuilder.enableColumnRotationIn EvaluationKeyBuilder.enableColumnRotation
    refine matches_get_bind ?_
    cases eb.rot.lookup i with
    | some x => exact matches_ok rfl
    | none => exact matches_eval_bind fun a _ => matches_throw _ _

/-! ## What failure leaves behind -/

/-- C81: if switching a usable ciphertext to another level fails, the ciphertext is as before. -/
theorem C81_switch (hb : b.OK) (h : build b st = Res.ok par.toBfvParameters) (hct : ct.Usable par) :
    Atomic switchDownIn ct ∧ ∀ target, Atomic (switchToLevelIn target) ct := by
  obtain ⟨n, hw, -⟩ := build_inv hb h
  obtain ⟨m, v, he⟩ := hct.encrypts hw 0
  have hlev := hct.level
  have hmax : ct.par.maxLevel = some (par.moduli.length - 1) := by
    unfold BfvParameters.maxLevel
    rw [hct.par_eq, hw.length, subU_eq (by omega)]
  refine ⟨?_, fun target => ?_⟩
  · by_cases hi : ct.level + 1 < par.moduli.length
    · obtain ⟨r, v', q, δ, e1, -⟩ := C46_switch_down hb h he hi
      exact atomic_of_ok ((switchDownIn_matches ct).ok e1)
    · unfold switchDownIn
      refine atomic_get_bind (atomic_eval_bind fun max hm => ?_)
      rw [hmax, Res.lift_some, Res.ok_inj] at hm
      rw [if_pos (by omega)]
      exact atomic_throw _ _
  · by_cases ht : target < ct.level ∨ par.moduli.length ≤ target
    · unfold switchToLevelIn
      refine atomic_get_bind (atomic_eval_bind fun max hm => ?_)
      rw [hmax, Res.lift_some, Res.ok_inj] at hm
      by_cases h1 : target < ct.level
      · rw [if_pos h1]; exact atomic_throw _ _
      · rw [if_neg h1, if_pos (by omega)]; exact atomic_throw _ _
    · obtain ⟨V, hV⟩ := IntPoly.exists_bound v
      obtain ⟨r, v', e1, -⟩ := C46_switch_to_level hb h he (target := target) (by omega) (by omega) (S := 0) (fun t => by simp) hV
      exact atomic_of_ok ((switchToLevelIn_matches ct target).ok e1)

/-- C81: if adding or subtracting a ciphertext fails, because it belongs to other parameters, or has another level or another number of parts, then the
ciphertext on the left is as before.  Both may be the empty ciphertext. -/
theorem C81_operators (hb : b.OK) (h : build b st = Res.ok par.toBfvParameters) (wreck : Poly .ntt) (hct : ct.c = [] ∨ ct.Usable par)
    (hrhs : ct.par.ptrEq rhs.par = false ∨ rhs.c = [] ∨ rhs.Usable par) : Atomic (addIn wreck rhs) ct ∧ Atomic (subIn wreck rhs) ct := by
  obtain ⟨n, hw, -⟩ := build_inv hb h
  have main : ct.c ≠ [] → rhs.c ≠ [] → ct.par.ptrEq rhs.par = true → ct.level = rhs.level → ct.c.length = rhs.c.length →
      ∃ r r', ct.add rhs = some r ∧ ct.sub rhs = some r' := fun h1 h2 h3 h4 h5 => by
    have u1 := hct.resolve_left h1
    have u2 := (hrhs.resolve_left (by rw [h3]; simp)).resolve_left h2
    obtain ⟨m, v, he⟩ := u1.encrypts hw 0
    obtain ⟨m', v', he'⟩ := u2.encrypts hw 0
    rw [← h4] at he'
    obtain ⟨r, e1, -⟩ := C38_add hb h he he' h5
    obtain ⟨r', e2, -⟩ := C38_sub hb h he he' h5
    exact ⟨r, r', e1, e2⟩
  by_cases hgood : ct.c ≠ [] ∧ rhs.c ≠ [] ∧ ct.par.ptrEq rhs.par = true ∧ ct.level = rhs.level ∧ ct.c.length = rhs.c.length
  · obtain ⟨r, r', e1, e2⟩ := main hgood.1 hgood.2.1 hgood.2.2.1 hgood.2.2.2.1 hgood.2.2.2.2
    exact ⟨atomic_of_ok ((addIn_matches wreck ct rhs).ok (by rw [e1]; rfl)), atomic_of_ok ((subIn_matches wreck ct rhs).ok (by rw [e2]; rfl))⟩
  · constructor
    · unfold addIn
      refine atomic_get_bind (atomic_assert_bind fun a1 => ?_)
      by_cases h1 : ct.c = []
      · rw [if_pos h1]; exact atomic_of_ok (exec_set _ _)
      rw [if_neg h1]
      by_cases h2 : rhs.c ≠ []
      · rw [if_pos h2]
        exact atomic_assert_bind fun a2 => atomic_assert_bind fun a3 => absurd ⟨h1, h2, a1, a2, a3⟩ hgood
      · rw [if_neg h2]; exact atomic_of_ok (exec_pure _ _)
    · unfold subIn
      refine atomic_get_bind (atomic_assert_bind fun a1 => ?_)
      by_cases h1 : ct.c = []
      · rw [if_pos h1]; exact atomic_eval_bind fun a _ => atomic_of_ok (exec_set _ _)
      rw [if_neg h1]
      by_cases h2 : rhs.c ≠ []
      · rw [if_pos h2]
        exact atomic_assert_bind fun a2 => atomic_assert_bind fun a3 => absurd ⟨h1, h2, a1, a2, a3⟩ hgood
      · rw [if_neg h2]; exact atomic_of_ok (exec_pure _ _)

/-- C81: the same for adding, subtracting and multiplying by a plaintext, of any level or of other parameters. -/
theorem C81_plain (hb : b.OK) (h : build b st = Res.ok par.toBfvParameters) (wreck : Poly .ntt) (hct : ct.c = [] ∨ ct.Usable par) {pt : Plaintext}
    (hpt : ct.par.ptrEq pt.par = false ∨ (pt.Holds par i m ∧ par.plaintext.value ≤ par.modulusAt i)) :
    Atomic (addPlainIn wreck pt) ct ∧ Atomic (subPlainIn wreck pt) ct ∧ Atomic (mulPlainIn wreck pt) ct := by
  obtain ⟨n, hw, -⟩ := build_inv hb h
  have main : ct.c ≠ [] → ct.par.ptrEq pt.par = true → lift pt.level = Res.ok ct.level →
      ∃ r r' r'', ct.addPlain pt = some r ∧ ct.subPlain pt = some r' ∧ ct.mulPlain pt = some r'' := fun h1 h2 h3 => by
    have u1 := hct.resolve_left h1
    obtain ⟨hpt, hQ⟩ := hpt.resolve_left (by rw [h2]; simp)
    obtain ⟨l, hl, hlc⟩ := ParWF.contextAtLevel_iff.1 hpt.ctx
    have hlev := hpt.level_eq hw (AtLevel.ofGet hw hl)
    rw [hlev, Res.lift_some, Res.ok_inj] at h3
    obtain ⟨m', v, he⟩ := u1.encrypts hw 0
    rw [← h3] at he
    obtain ⟨w, -, ⟨r1, e1, -⟩, ⟨r2, e2, -⟩, -⟩ := C38_plain hb h hQ he hpt
    obtain ⟨r4, P, e4, -⟩ := C38_mul_plain hb h he hpt
    exact ⟨_, _, _, e1, e2, e4⟩
  by_cases hgood : ct.c ≠ [] ∧ ct.par.ptrEq pt.par = true ∧ lift pt.level = Res.ok ct.level
  · obtain ⟨r, r', r'', e1, e2, e3⟩ := main hgood.1 hgood.2.1 hgood.2.2
    exact ⟨atomic_of_ok ((addPlainIn_matches wreck ct pt).ok (by rw [e1]; rfl)), atomic_of_ok ((subPlainIn_matches wreck ct pt).ok (by rw [e2]; rfl)),
      atomic_of_ok ((mulPlainIn_matches wreck ct pt).ok (by rw [e3]; rfl))⟩
  · refine ⟨?_, ?_, ?_⟩
    · unfold addPlainIn
      exact atomic_get_bind (atomic_assert_bind fun a1 => atomic_assert_bind fun a2 => atomic_eval_bind fun lv hlv => atomic_assert_bind fun a3 =>
        absurd ⟨a2, a1, a3 ▸ hlv⟩ hgood)
    · unfold subPlainIn
      exact atomic_get_bind (atomic_assert_bind fun a1 => atomic_assert_bind fun a2 => atomic_eval_bind fun lv hlv => atomic_assert_bind fun a3 =>
        absurd ⟨a2, a1, a3 ▸ hlv⟩ hgood)
    · unfold mulPlainIn
      refine atomic_get_bind (atomic_assert_bind fun a1 => ?_)
      by_cases h1 : ct.c ≠ []
      · simp only [if_pos h1]
        exact atomic_eval_bind fun lv hlv => atomic_assert_bind fun a3 => absurd ⟨h1, a1, a3 ▸ hlv⟩ hgood
      · simp only [if_neg h1]
        exact atomic_of_ok (exec_modify _ _)

/-- C81: if relinearization returns an error, the ciphertext is as before, whatever the key and the ciphertext are.  With a key that was read and a usable
ciphertext the same is true of every failure. -/
theorem C81_relinearize (wreck : Poly .ntt) (k : RelinearizationKey) (ct : Ciphertext) :
    (∀ e s', (k.relinearizesIn wreck).exec ct = (.error (.err e), s') → s' = ct) ∧
    (b.OK → build b st = Res.ok par.toBfvParameters → g.OK → k.Received g par → ct.Usable par → Atomic (k.relinearizesIn wreck) ct) := by
  have key : ∀ e s', (k.relinearizesIn wreck).exec ct = (.error (.err e), s') → s' = ct := fun e s' hx => by
    unfold RelinearizationKey.relinearizesIn at hx
    rw [exec_bind, exec_get] at hx
    simp only at hx
    rcases Res.cases (ct.validateFor k.ksk.par) with ⟨u, hu⟩ | ⟨e', hu⟩ | hu
    · rw [hu, exec_bind, exec_eval_ok] at hx
      simp only at hx
      split at hx
      · rename_i x0 x1 x2 hc
        split at hx
        · rw [exec_throw] at hx; simp at hx; exact hx.2.symm
        · rename_i hlv
          rcases Res.cases (lift x2.nttToPowerBasis) with ⟨c2, h2⟩ | ⟨e', h2⟩ | h2
          · rw [h2, exec_bind, exec_eval_ok] at hx
            simp only at hx
            rcases Res.cases (k.ksk.keySwitch c2) with ⟨a, h3⟩ | ⟨e', h3⟩ | h3
            · rw [h3, exec_bind, exec_eval_ok] at hx
              simp only at hx
              rcases Res.cases (switchPair a x0 x1) with ⟨a', h4⟩ | ⟨e', h4⟩ | h4
              · exfalso
                rw [h4, exec_bind, exec_eval_ok] at hx
                simp only at hx
                rw [exec_bind, updatePart_exec wreck 0 _ ct (x := x0) (by rw [hc]; rfl)] at hx
                cases h5 : x0.addAssign a'.1 with
                | none => rw [h5] at hx; simp at hx
                | some y =>
                  rw [h5] at hx
                  simp only at hx
                  rw [exec_bind, updatePart_exec wreck 1 _ _ (x := x1) (by simp [hc])] at hx
                  cases h6 : x1.addAssign a'.2 with
                  | none => rw [h6] at hx; simp at hx
                  | some z =>
                    rw [h6] at hx
                    simp [exec_modify] at hx
              · rw [h4, exec_bind, exec_eval_err] at hx; simp at hx; exact hx.2.symm
              · rw [h4, exec_bind, exec_eval_panic] at hx; simp at hx
            · rw [h3, exec_bind, exec_eval_err] at hx; simp at hx; exact hx.2.symm
            · rw [h3, exec_bind, exec_eval_panic] at hx; simp at hx
          · rw [h2, exec_bind, exec_eval_err] at hx; simp at hx; exact hx.2.symm
          · rw [h2, exec_bind, exec_eval_panic] at hx; simp at hx
      · rw [exec_throw] at hx; simp at hx; exact hx.2.symm
    · rw [hu, exec_bind, exec_eval_err] at hx; simp at hx; exact hx.2.symm
    · rw [hu, exec_bind, exec_eval_panic] at hx; simp at hx
  refine ⟨key, fun hb h hg hk hct f s' hx => ?_⟩
  have hm := k.relinearizesIn_matches wreck ct
  rcases Res.cases (k.relinearizes ct) with ⟨r, hr⟩ | ⟨e, hr⟩ | hr
  · rw [hm.1 r hr] at hx; simp at hx
  · have := hm.2.1 e hr
    rw [hx] at this
    simp at this
    rw [this] at hx
    exact key e s' hx
  · exact absurd hr (C67_relinearize hb h hg hk hct).1

/-- C81: if switching a polynomial down fails, because there is no further level, or the target is not one of the following levels, it is as before. -/
theorem C81_poly (hb : b.OK) {moduli : List Nat} {degree : Nat} {c : Context} (hc : Context.new b moduli degree = some (.ok c)) (wreck : Poly .powerBasis) {p : Poly .powerBasis} {f : c.Elem}
    (hp : Represents c p f) : Atomic (Poly.switchDownIn wreck) p ∧ ∀ t, Atomic (Poly.switchDownToIn wreck t) p := by
  obtain ⟨n, hdeg, hw, hm⟩ := Context.new_inv hb hc
  have hpos := hw.length_pos
  obtain ⟨h1, h2⟩ := C26_switch_down hb hc hp
  refine ⟨?_, fun t => ?_⟩
  · by_cases hl : moduli.length = 1
    · unfold Poly.switchDownIn
      refine atomic_get_bind ?_
      rw [h2 hl]
      exact atomic_throw _ _
    · rw [hm] at hpos
      obtain ⟨c', p', f', -, -, e, -⟩ := h1 (moduli.getLast (by rintro rfl; simp at hpos)) (by omega) (List.getLast?_eq_getLast_of_ne_nil _)
      exact atomic_of_ok ((Poly.switchDownIn_matches wreck p).ok (by rw [e]; rfl))
  · obtain ⟨h3, h4⟩ := C26_switch_down_to hb hc hp t
    have hpc : p.ctx = c := hp.ctx
    rcases hw.niterationsTo_eq t with ⟨k, hk, e1, e2⟩ | ⟨-, e2⟩
    · obtain ⟨p', f', e, -⟩ := h3 k (by unfold Context.contextAtLevel; rw [if_neg (by omega), e1]; rfl)
      exact atomic_of_ok ((Poly.switchDownToIn_matches wreck p t).ok (by rw [e]; rfl))
    · unfold Poly.switchDownToIn
      refine atomic_get_bind ?_
      rw [hpc, e2]
      exact atomic_throw _ _

/-- C81: a multiplicator, or a builder of evaluation keys, that refuses a setting is as before. -/
theorem C81_builders (mp : Multiplicator) (rk : RelinearizationKey) (eb : EvaluationKeyBuilder) (i : Nat) :
    Atomic (Multiplicator.enableRelinearizationIn rk) mp ∧ Atomic Multiplicator.enableModSwitchingIn mp ∧ Atomic (EvaluationKeyBuilder.enableExpansionIn i) eb ∧
    Atomic (EvaluationKeyBuilder.enableColumnRotationIn i) eb := by
  refine ⟨?_, ?_, ?_, ?_⟩
  · refine atomic_get_bind (atomic_eval_bind fun a _ => ?_)
    by_cases h : a ≠ mp.baseCtx
    · rw [if_pos h]; exact atomic_throw _ _
    · rw [if_neg h]; exact atomic_of_ok rfl
  · refine atomic_get_bind (atomic_eval_bind fun a _ => ?_)
    by_cases h : a = mp.baseCtx
    · rw [if_pos h]; exact atomic_throw _ _
    · rw [if_neg h]; exact atomic_of_ok rfl
  · refine atomic_get_bind ?_
    simp only
    by_cases h : i > Nat.log2 eb.sk.par.degree
    · rw [if_pos h]; exact atomic_throw _ _
    · rw [if_neg h]; exact atomic_of_ok rfl
  · refine atomic_get_bind ?_
    cases eb.rot.lookup i with
    | some x => exact atomic_of_ok rfl
    | none => exact atomic_eval_bind fun a _ => atomic_throw _ _

/-! ## Where this fails -/

/-- C81: the assumption that the parts are of the level of the ciphertext is needed.  The parts can be assigned (`ct[1] = …`): if the second one was taken
from a ciphertext of the last level, then switching down returns an error, but the seed is gone and the first part has been switched. -/
theorem C81_torn (hb : b.OK) (h : build b st = Res.ok par.toBfvParameters) (h2 : 2 ≤ par.moduli.length) {x y : Poly .ntt} (hx : x.Valid) (hy : y.Valid)
    (hxc : par.contextAtLevel 0 = Res.ok x.ctx) (hyc : par.contextAtLevel (par.moduli.length - 1) = Res.ok y.ctx) (seed : Option (List Nat)) :
    ∃ x' : Poly .ntt, par.contextAtLevel 1 = Res.ok x'.ctx ∧ x' ≠ x ∧
      switchDownIn.exec { par := par, seed := seed, c := [x, y], level := 0 } = (.error (.err (.math .noMoreContext)), { par := par, seed := none, c := [x', y], level := 0 }) := by
  obtain ⟨n, hw, -⟩ := build_inv hb h
  obtain ⟨l, ha, hl⟩ := AtLevel.ofContext hw hxc
  obtain ⟨lz, haz, hlz⟩ := AtLevel.ofContext hw hyc
  obtain ⟨l', ha'⟩ := AtLevel.ofLt (par := par) hw (i := 1) (by omega)
  obtain ⟨F, hF, -⟩ := exists_encI ha.wf ha.deg hl.symm hx
  obtain ⟨G, hG, -⟩ := exists_encI haz.wf haz.deg hlz.symm hy
  obtain ⟨e1, -⟩ := switchPoly_eq ha ha' (vt := x.vt) F
  rw [← hF] at e1
  have hmax : par.maxLevel = some (par.moduli.length - 1) := by
    unfold BfvParameters.maxLevel
    rw [hw.length, subU_eq (by omega)]
  have e2 : switchPoly y = Res.err (.math .noMoreContext) := by
    unfold switchPoly
    rw [hG, Poly.nttToPowerBasis_encI haz.wf, Res.lift_some, Res.ok_bind]
    have hlen : lz.ctx.moduli.length < 2 := by rw [haz.moduli, List.length_take]; omega
    have : (encI lz.ctx .powerBasis y.vt G).switchDown = some (.error .noMoreContext) := by
      unfold Poly.switchDown
      rw [show (encI lz.ctx .powerBasis y.vt G).ctx = lz.ctx from rfl, haz.wf.next_none hlen]; rfl
    rw [this]; rfl
  have r1 : ∀ s : Ciphertext, s.c[0]? = some x → (replacePart 0 switchPoly).exec s = (.ok (), { s with c := s.c.set 0 (encI l'.ctx .ntt x.vt (roundI (l.ctx.moduli.getLastD 0) F)) }) := fun s hs => by
    unfold replacePart
    rw [exec_bind, exec_get]
    simp only
    rw [hs, Res.lift_some, exec_bind, exec_eval_ok]
    simp only
    rw [e1, exec_bind, exec_eval_ok]
    rfl
  have r2 : ∀ s : Ciphertext, s.c[1]? = some y → (replacePart 1 switchPoly).exec s = (.error (.err (.math .noMoreContext)), s) := fun s hs => by
    unfold replacePart
    rw [exec_bind, exec_get]
    simp only
    rw [hs, Res.lift_some, exec_bind, exec_eval_ok]
    simp only
    rw [e2, exec_bind, exec_eval_err]
  refine ⟨encI l'.ctx .ntt x.vt (roundI (l.ctx.moduli.getLastD 0) F), by rw [ha'.contextAt]; rfl, fun heq => ?_, ?_⟩
  · exact ha.ctx_ne ha' (by decide) (by rw [hl, ← congrArg Poly.ctx heq]; rfl)
  · unfold switchDownIn
    rw [exec_bind, exec_get]
    simp only
    rw [hmax, Res.lift_some, exec_bind, exec_eval_ok]
    simp only
    rw [if_neg (by omega), exec_bind, exec_modify]
    simp only [List.length_cons, List.length_nil, forParts]
    refine exec_bind_error ?_
    rw [exec_bind_ok (r1 _ rfl)]
    exact exec_bind_error (r2 _ rfl)

/-! ## Concrete cases -/

/-- A ciphertext, and the same one at the last level: adding them panics, and so does adding a plaintext of level zero to the latter; switching the latter
further, or back to level zero, is an error.  All of this leaves them as they were.  With the parts of both in one ciphertext, switching is an error and
changes the ciphertext. -/
example (wreck : Poly .ntt) : ∃ (par : Par) (ct r : Ciphertext) (pt : Plaintext), build luckyBuild exBuilder = Res.ok par.toBfvParameters ∧ ct.Usable par ∧ r.Usable par ∧ r.level = 2 ∧
    (addIn wreck r).exec ct = (.error .panic, ct) ∧ (addPlainIn wreck pt).exec r = (.error .panic, r) ∧ (∃ e, switchDownIn.exec r = (.error (.err e), r)) ∧
    (∃ e, (switchToLevelIn 0).exec r = (.error (.err e), r)) ∧
    ∃ s s' : Ciphertext, s.par = par ∧ s.c.head? = ct.c.head? ∧ s.c.tail = r.c.tail ∧ (∃ e, switchDownIn.exec s = (.error (.err e), s')) ∧ s ≠ s' := by
  obtain ⟨par, sk, s, pt, pt', m, m', ct, ct', v, v', h, hd, ht, hm, hrel, hk, hs, e2, e2', em, em', f1, f1', f2, f2', f3, f3', f4, f4', f5, f6, h0, hvar⟩ := exCipher
  have hb := luckyBuild_ok
  obtain ⟨n, hw, -⟩ := build_inv hb h
  have hu := f2.usable hw
  obtain ⟨r, v'', g1, g2, g3, -⟩ := C46_switch_to_level hb h f2 (target := 2) (by omega) (by rw [hm]; decide) hs f3
  have hur := g2.usable hw
  have hlr := g2.level_eq
  have hlc := f2.level_eq
  have hQ : par.plaintext.value ≤ par.modulusAt 0 := by rw [h0, ht]; norm_num
  have pe : ∀ (x y : Par), x = par → y = par → x.ptrEq y = true := fun x y hx hy => by rw [hx, hy]; simp [Par.ptrEq]
  have fail : ∀ {x : InPlace Ciphertext Unit} {s : Ciphertext} {f : Failure}, Atomic x s → (x.exec s).1 = .error f → x.exec s = (.error f, s) := fun {x s f} ha hx => by
    rcases hh : x.exec s with ⟨o, s'⟩
    rw [hh] at hx
    simp only at hx
    subst hx
    rw [ha f s' hh]
  have n1 : ct.add r = none := (C48_mismatch ct r ⟨par, none, ct.c.head (ne_nil_of_two hu.parts)⟩).2.1 (ne_nil_of_two hu.parts) (ne_nil_of_two hur.parts) (.inl (by rw [hlr, hlc]; decide)) |>.1
  have n2 : r.addPlain pt = none := (C67_plain hb h hQ hur e2).1.2 (by rw [hlr]; decide)
  have n3 : r.switchDown = Res.err (.math .noMoreContext) := C46_last hb h hur.par_eq (by rw [hlr, hm]; decide)
  have n4 : r.switchToLevel 0 = Res.err (.invalidLevel 0 r.level (par.moduli.length - 1)) := C46_rejects hb h hur.par_eq (.inl (by rw [hlr]; decide))
  obtain ⟨x, x', hx⟩ : ∃ x x', ct.c = [x, x'] := List.length_eq_two.1 f4
  obtain ⟨y', y, hy⟩ : ∃ y' y, r.c = [y', y] := List.length_eq_two.1 (by rw [g3, f4])
  have vx := hu.valid x (by rw [hx]; simp)
  have vy := hur.valid y (by rw [hy]; simp)
  rw [hlc] at vx
  rw [hlr] at vy
  obtain ⟨z, z1, z2, z3⟩ := C81_torn hb h (by rw [hm]; decide) vx.1 vy.1 vx.2 (by rw [hm]; exact vy.2) ct.seed
  refine ⟨par, ct, r, pt, h, hu, hur, hlr, fail (C81_operators hb h wreck (.inr hu) (.inr (.inr hur))).1 ((addIn_matches wreck ct r).2.2 (by rw [n1]; rfl)),
    fail (C81_plain hb h wreck (.inr hur) (.inr ⟨e2, hQ⟩)).1 ((addPlainIn_matches wreck r pt).2.2 (by rw [n2]; rfl)),
    ⟨_, fail (C81_switch hb h hur).1 ((switchDownIn_matches r).2.1 _ n3)⟩, ⟨_, fail ((C81_switch hb h hur).2 0) ((switchToLevelIn_matches r 0).2.1 _ n4)⟩,
    _, _, rfl, by rw [hx]; rfl, by rw [hy]; rfl, ⟨_, z3⟩, fun heq => z2 ?_⟩
  have := congrArg Ciphertext.c heq
  simp at this
  exact this.symm

/-- A polynomial of two moduli, which can be switched down, and one of the last modulus, which cannot and is left as it was. -/
example (wreck : Poly .powerBasis) : ∃ (c c' : Context) (p p' : Poly .powerBasis) (f' : c'.Elem), Context.new exBuild [97, 193] 16 = some (.ok c) ∧ Represents c p (mono 2) ∧
    (Poly.switchDownIn wreck).exec p = (.ok (), p') ∧ Represents c' p' f' ∧ (Poly.switchDownIn wreck).exec p' = (.error (.err (.math .noMoreContext)), p') := by
  obtain ⟨c, hc⟩ := exContext
  obtain ⟨p, hp, -⟩ := (C23_represents (r := .powerBasis) exBuild_ok hc).2.1 (mono 2) false
  obtain ⟨c', p', f', a1, -, a3, a4, -⟩ := (C26_switch_down exBuild_ok hc hp).1 193 (by simp) (by simp)
  have a5 := (C26_switch_down exBuild_ok a1 a4).2 (by simp)
  have a6 := (Poly.switchDownIn_matches wreck p').2.1 (.math .noMoreContext) (by rw [a5]; rfl)
  rcases hh : (Poly.switchDownIn wreck).exec p' with ⟨o, s'⟩
  rw [hh] at a6
  simp only at a6
  subst a6
  rw [(C81_poly exBuild_ok a1 wreck a4).1 _ s' hh] at hh
  exact ⟨c, c', p, p', f', hc, hp, (Poly.switchDownIn_matches wreck p).ok (by rw [a3]; rfl), a4, hh⟩

end Fhe.Props
