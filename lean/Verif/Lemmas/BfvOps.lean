import Verif.Lemmas.BfvDecrypt
import Verif.Lemmas.BfvEncode
import Verif.Lemmas.RqSer
/-!
# Encryption, linear operations and modulus switching
-/
namespace Fhe
open Nega Poly Ciphertext

variable {b : Build} {n N : Nat} {c : Context} {par : Par} {i : Nat} {l : ContextLevel} {s : IntPoly par.degree}

/-! ## Scaled messages -/

/-- The integer polynomial of the coefficients of a message. -/
def msgInt {t : Nat} (m : Nega N (ZMod t)) : IntPoly N := Nega.mapFn (fun x : ZMod t => (x.val : Int)) m
/-- The coefficients `⌊Q m / t⌋`. -/
def scaleMsg (Q : Nat) {t : Nat} (m : Nega N (ZMod t)) : IntPoly N := Nega.mapFn (fun x : ZMod t => ((Q * x.val / t : Nat) : Int)) m
/-- The remainders of `Q m` by `t`. -/
def scaleRest (Q : Nat) {t : Nat} (m : Nega N (ZMod t)) : IntPoly N := Nega.mapFn (fun x : ZMod t => ((Q * x.val % t : Nat) : Int)) m

theorem red_msgInt {t : Nat} [NeZero t] (m : Nega N (ZMod t)) : red t (msgInt m) = m := by
  apply Nega.ext; intro j
  show (((m j).val : Int) : ZMod t) = m j
  simp

theorem scaleMsg_mul (Q : Nat) {t : Nat} (m : Nega N (ZMod t)) : C (t : Int) * scaleMsg Q m = C (Q : Int) * msgInt m - scaleRest Q m := by
  apply Nega.ext; intro j
  rw [Nega.sub_apply, C_mul_apply, C_mul_apply]
  show (t : Int) * ((Q * (m j).val / t : Nat) : Int) = (Q : Int) * ((m j).val : Int) - ((Q * (m j).val % t : Nat) : Int)
  have := Nat.div_add_mod (Q * (m j).val) t
  have h : ((t * (Q * (m j).val / t) + Q * (m j).val % t : Nat) : Int) = ((Q * (m j).val : Nat) : Int) := by rw [this]
  push_cast at h ⊢
  linarith

theorem scaleRest_bounded (Q : Nat) {t : Nat} (ht : 0 < t) (m : Nega N (ZMod t)) : (scaleRest Q m).Bounded t := by
  intro j
  show |((Q * (m j).val % t : Nat) : Int)| ≤ t
  have := Nat.mod_lt (Q * (m j).val) ht
  rw [abs_of_nonneg (by positivity)]
  exact_mod_cast this.le

theorem msgInt_bounded {t : Nat} [NeZero t] (m : Nega N (ZMod t)) : (msgInt m).Bounded t := by
  intro j
  show |((m j).val : Int)| ≤ t
  rw [abs_of_nonneg (by positivity)]
  exact_mod_cast (ZMod.val_lt (m j)).le

theorem ofList_msgCoeffs {t : Nat} (m : Nega N (ZMod t)) (f : Nat → Nat) :
    IntPoly.ofList N (((msgCoeffs m).map f).map fun x : Nat => (x : Int)) = Nega.mapFn (fun x : ZMod t => (f x.val : Int)) m := by
  apply Nega.ext; intro j
  show ((((msgCoeffs m).map f).map fun x : Nat => (x : Int)).getD j.val 0) = ((f (m j).val : Nat) : Int)
  rw [List.getD_eq_getElem _ _ (by rw [List.length_map, List.length_map, length_msgCoeffs]; exact j.isLt), List.getElem_map, List.getElem_map]
  simp [msgCoeffs]

theorem Plaintext.toPoly_encI (hw : ParWF b n par.toBfvParameters) (ha : AtLevel b n par i l) (hQ : par.plaintext.value ≤ par.modulusAt i) {pt : Plaintext} {m : par.Msg}
    (h : pt.Holds par i m) : pt.toPoly = some (encI l.ctx .ntt false (scaleMsg (par.modulusAt i) m)) := by
  rw [toPoly_eq hw ha.get (by rw [ha.mod]; exact hQ) h]
  unfold encI
  rw [ofNats_eq_ofInt ha.deg, ofList_msgCoeffs, ha.mod]; rfl

theorem Plaintext.polyNtt_encI (hw : ParWF b n par.toBfvParameters) (ha : AtLevel b n par i l) {pt : Plaintext} {m : par.Msg} (h : pt.Holds par i m) :
    pt.polyNtt = encI l.ctx .ntt pt.polyNtt.vt (msgInt m) := by
  obtain ⟨l', hl', h1, -⟩ := h.enc hw
  obtain rfl : l = l' := by have := ha.get; rw [hl'] at this; simpa using this.symm
  unfold encI
  have e := ofList_msgCoeffs m id
  rw [List.map_id] at e
  rw [show (msgInt m : IntPoly par.degree) = Nega.mapFn (fun x : ZMod par.plaintext.value => ((id x.val : Nat) : Int)) m from rfl, ← e, ← ofNats_eq_ofInt ha.deg]
  exact h1

theorem Plaintext.Holds.level_eq (hw : ParWF b n par.toBfvParameters) (ha : AtLevel b n par i l) {pt : Plaintext} {m : par.Msg} (h : pt.Holds par i m) : pt.level = some i :=
  Plaintext.level_eq hw h.par_eq ha.get (by rw [polyNtt_encI hw ha h]; rfl)

theorem Plaintext.Holds.validateFor (hw : ParWF b n par.toBfvParameters) (ha : AtLevel b n par i l) {pt : Plaintext} {m : par.Msg} (h : pt.Holds par i m) :
    pt.validateFor par = Res.ok () := by
  have hl := Plaintext.Holds.level_eq hw ha h
  unfold Plaintext.validateFor
  rw [h.par_eq, ptrEq_self, if_neg (by simp), hl, Res.lift_some, Res.ok_bind, ha.contextAt, Res.ok_bind]
  unfold Plaintext.validateContext
  rw [hl, Res.lift_some, Res.ok_bind, if_neg (by simp), if_neg (by rw [Plaintext.polyNtt_encI hw ha h]; simp [ctx_encI])]

/-! ## Secret-key encryption -/

theorem SecretKey.encryptPoly_eq (ha : AtLevel b n par i l) {sk : SecretKey} (hk : sk.IsKey par s) {g : Prg} (hg : g.OK)
    (seed : Seed) {rng : Nat → Nat} {e : IntPoly par.degree} (he : smallNtt l.ctx par.variance rng = some (.ok (encI l.ctx .ntt false e))) {vt : Bool} (P : IntPoly par.degree) :
    ∃ A : IntPoly par.degree, g.poly .ntt l.ctx seed = some (encI l.ctx .ntt false A) ∧ sk.encryptPoly g (encI l.ctx .ntt vt P) seed rng =
      Res.ok { par, seed := some seed, c := [encI l.ctx .ntt true (e - A * s + P), encI l.ctx .ntt true A], level := i } := by
  obtain ⟨A, hA⟩ := Prg.poly_encI hg ha.wf ha.deg .ntt seed
  refine ⟨A, hA, ?_⟩
  unfold encryptPoly
  rw [ctx_encI, hk.par_eq, ha.levelOf, Res.ok_bind, polyAt_encI hk ha.wf ha.deg, Res.ok_bind, hA, Res.lift_some, Res.ok_bind, mulAssign_encI ha.wf ha.deg, Res.lift_some, Res.ok_bind,
    he, Res.math_ok, Res.ok_bind, subAssign_encI ha.wf ha.deg (by simp), Res.lift_some, Res.ok_bind, addAssign_encI ha.wf ha.deg (by simp), Res.lift_some, Res.ok_bind]
  rfl

theorem SecretKey.tryEncrypt_eq (hw : ParWF b n par.toBfvParameters) (ha : AtLevel b n par i l) {sk : SecretKey} (hk : sk.IsKey par s) {g : Prg} (hg : g.OK)
    (hQ : par.plaintext.value ≤ par.modulusAt i) {pt : Plaintext} {m : par.Msg} (hpt : pt.Holds par i m)
    (seed : Seed) {rng : Nat → Nat} (hr : IsStream rng) :
    ∃ A e : IntPoly par.degree, e.Bounded (2 * par.variance) ∧ g.poly .ntt l.ctx seed = some (encI l.ctx .ntt false A) ∧ sk.tryEncrypt g pt seed rng =
      Res.ok { par, seed := some seed, c := [encI l.ctx .ntt true (e - A * s + scaleMsg (par.modulusAt i) m), encI l.ctx .ntt true A], level := i } := by
  obtain ⟨e, heb, he⟩ := small_encI hw.variance.1 hw.variance.2 hr par.degree
  obtain ⟨A, hA, h⟩ := encryptPoly_eq ha hk hg seed (he ha.wf ha.deg).2.1 (vt := false) (scaleMsg (par.modulusAt i) m)
  refine ⟨A, e, heb, hA, ?_⟩
  unfold tryEncrypt
  rw [hk.par_eq, hpt.validateFor hw ha, Res.ok_bind, Plaintext.toPoly_encI hw ha hQ hpt, Res.lift_some, Res.ok_bind, h]

/-! ## Linear operations -/

theorem phase_add (s : IntPoly N) : ∀ {F G : List (IntPoly N)}, F.length = G.length → Fhe.phase s (List.zipWith (· + ·) F G) = Fhe.phase s F + Fhe.phase s G
  | [], [], _ => by simp [phase_nil]
  | f :: F, g :: G, h => by rw [List.zipWith_cons_cons, phase_cons, phase_cons, phase_cons, phase_add s (by simpa using h)]; ring
theorem phase_sub (s : IntPoly N) : ∀ {F G : List (IntPoly N)}, F.length = G.length → Fhe.phase s (List.zipWith (· - ·) F G) = Fhe.phase s F - Fhe.phase s G
  | [], [], _ => by simp [phase_nil]
  | f :: F, g :: G, h => by rw [List.zipWith_cons_cons, phase_cons, phase_cons, phase_cons, phase_sub s (by simpa using h)]; ring
theorem phase_neg (s : IntPoly N) : ∀ F : List (IntPoly N), Fhe.phase s (F.map (- ·)) = - Fhe.phase s F
  | [] => by simp [phase_nil]
  | f :: F => by rw [List.map_cons, phase_cons, phase_cons, phase_neg s F]; ring
theorem phase_mul (s P : IntPoly N) : ∀ F : List (IntPoly N), Fhe.phase s (F.map (· * P)) = Fhe.phase s F * P
  | [] => by simp [phase_nil]
  | f :: F => by rw [List.map_cons, phase_cons, phase_cons, phase_mul s P F]; ring

theorem Parts.add (h : c.WF b n) (hN : c.degree = N) : ∀ {ps qs : List (Poly .ntt)} {F G : List (IntPoly N)}, Parts c ps F → Parts c qs G →
    ∃ rs, ((ps.zip qs).mapM fun x : Poly .ntt × Poly .ntt => x.1.addAssign x.2) = some rs ∧ Parts c rs (List.zipWith (· + ·) F G)
  | _, _, _, _, .nil, _ => ⟨[], by simp, by simp⟩
  | _, _, _, _, .cons _ _, .nil => ⟨[], by simp, by simp⟩
  | _, _, _, _, .cons ⟨v1, rfl⟩ h2, .cons ⟨v2, rfl⟩ h4 => by
    obtain ⟨rs, e, hp⟩ := Parts.add h hN h2 h4
    exact ⟨_ :: rs, by rw [List.zip_cons_cons, List.mapM_cons, e, addAssign_encI h hN (by simp)]; rfl, .cons ⟨_, rfl⟩ hp⟩
theorem Parts.sub (h : c.WF b n) (hN : c.degree = N) : ∀ {ps qs : List (Poly .ntt)} {F G : List (IntPoly N)}, Parts c ps F → Parts c qs G →
    ∃ rs, ((ps.zip qs).mapM fun x : Poly .ntt × Poly .ntt => x.1.subAssign x.2) = some rs ∧ Parts c rs (List.zipWith (· - ·) F G)
  | _, _, _, _, .nil, _ => ⟨[], by simp, by simp⟩
  | _, _, _, _, .cons _ _, .nil => ⟨[], by simp, by simp⟩
  | _, _, _, _, .cons ⟨v1, rfl⟩ h2, .cons ⟨v2, rfl⟩ h4 => by
    obtain ⟨rs, e, hp⟩ := Parts.sub h hN h2 h4
    exact ⟨_ :: rs, by rw [List.zip_cons_cons, List.mapM_cons, e, subAssign_encI h hN (by simp)]; rfl, .cons ⟨_, rfl⟩ hp⟩
theorem Parts.neg (h : c.WF b n) (hN : c.degree = N) : ∀ {ps : List (Poly .ntt)} {F : List (IntPoly N)}, Parts c ps F →
    ∃ rs, ps.mapM Poly.neg = some rs ∧ Parts c rs (F.map (- ·))
  | _, _, .nil => ⟨[], by simp, by simp⟩
  | _, _, .cons ⟨v1, rfl⟩ h2 => by
    obtain ⟨rs, e, hp⟩ := Parts.neg h hN h2
    exact ⟨_ :: rs, by rw [List.mapM_cons, e, neg_encI h hN (by simp)]; rfl, .cons ⟨_, rfl⟩ hp⟩
theorem Parts.mul (h : c.WF b n) (hN : c.degree = N) {vt : Bool} (P : IntPoly N) : ∀ {ps : List (Poly .ntt)} {F : List (IntPoly N)}, Parts c ps F →
    ∃ rs, (ps.mapM fun ci => ci.mulAssign (encI c .ntt vt P)) = some rs ∧ Parts c rs (F.map (· * P))
  | _, _, .nil => ⟨[], by simp, by simp⟩
  | _, _, .cons ⟨v1, rfl⟩ h2 => by
    obtain ⟨rs, e, hp⟩ := Parts.mul h hN P h2
    exact ⟨_ :: rs, by rw [List.mapM_cons, e, mulAssign_encI h hN]; rfl, .cons ⟨_, rfl⟩ hp⟩

theorem red_add (t : Nat) (F G : IntPoly N) : red t (F + G) = red t F + red t G := map_add _ _ _
theorem red_sub (t : Nat) (F G : IntPoly N) : red t (F - G) = red t F - red t G := map_sub _ _ _
theorem red_neg (t : Nat) (F : IntPoly N) : red t (-F) = -red t F := map_neg _ _
theorem red_mul (t : Nat) (F G : IntPoly N) : red t (F * G) = red t F * red t G := map_mul _ _ _

theorem ne_nil_of_two {α : Type} {l : List α} (h : 2 ≤ l.length) : l ≠ [] := by rintro rfl; simp at h

namespace Ciphertext
variable {ct ct' : Ciphertext} {m m' : par.Msg} {v v' : IntPoly par.degree}

theorem add_eq (hw : ParWF b n par.toBfvParameters) (h : ct.Encrypts par s i m v) (h' : ct'.Encrypts par s i m' v') (hlen : ct.c.length = ct'.c.length) :
    ∃ r, ct.add ct' = some r ∧ r.Encrypts par s i (m + m') (v + v') ∧ r.c.length = ct.c.length ∧ r.seed = none := by
  obtain ⟨l, F, M, ha, hF, hM, hph⟩ := h.elim hw
  obtain ⟨l', F', M', ha', hF', hM', hph'⟩ := h'.elim hw
  obtain rfl := ha.unique ha'
  obtain ⟨rs, e, hp⟩ := Parts.add ha.wf ha.deg hF hF'
  have hl : rs.length = ct.c.length := by
    rw [hp.length_eq, List.length_zipWith, ← hF.length_eq, ← hF'.length_eq]; omega
  have hc := h.parts
  refine ⟨{ ct with seed := none, c := rs }, ?_, ?_, hl, rfl⟩
  · unfold add
    rw [h.par_eq, h'.par_eq, ptrEq_self, check_eq rfl, Option.bind_eq_bind, Option.bind_some, if_neg (ne_nil_of_two hc), if_neg (ne_nil_of_two h'.parts),
      check_eq (by rw [h.level_eq, h'.level_eq]), Option.bind_some, check_eq hlen, Option.bind_some, e]
    rw [← h.par_eq]; rfl
  · refine Encrypts.intro ha h.par_eq h.level_eq (by show 2 ≤ rs.length; omega) hp (M := M + M') (by rw [red_add, hM, hM']) ?_
    rw [phase_add s (by rw [← hF.length_eq, ← hF'.length_eq, hlen]), mul_add, hph, hph']; ring

theorem neg_eq (hw : ParWF b n par.toBfvParameters) (h : ct.Encrypts par s i m v) :
    ∃ r, ct.neg = some r ∧ r.Encrypts par s i (-m) (-v) ∧ r.c.length = ct.c.length ∧ r.seed = none := by
  obtain ⟨l, F, M, ha, hF, hM, hph⟩ := h.elim hw
  obtain ⟨rs, e, hp⟩ := Parts.neg ha.wf ha.deg hF
  have hl : rs.length = ct.c.length := by rw [hp.length_eq, List.length_map, ← hF.length_eq]
  have hc := h.parts
  refine ⟨{ ct with seed := none, c := rs }, ?_, ?_, hl, rfl⟩
  · unfold neg
    rw [Option.bind_eq_bind, e]; rfl
  · refine Encrypts.intro ha h.par_eq h.level_eq (by show 2 ≤ rs.length; omega) hp (M := -M) (by rw [red_neg, hM]) ?_
    rw [phase_neg s, mul_neg, hph]; ring

theorem sub_eq (hw : ParWF b n par.toBfvParameters) (h : ct.Encrypts par s i m v) (h' : ct'.Encrypts par s i m' v') (hlen : ct.c.length = ct'.c.length) :
    ∃ r, ct.sub ct' = some r ∧ r.Encrypts par s i (m - m') (v - v') ∧ r.c.length = ct.c.length ∧ r.seed = none := by
  obtain ⟨l, F, M, ha, hF, hM, hph⟩ := h.elim hw
  obtain ⟨l', F', M', ha', hF', hM', hph'⟩ := h'.elim hw
  obtain rfl := ha.unique ha'
  obtain ⟨rs, e, hp⟩ := Parts.sub ha.wf ha.deg hF hF'
  have hl : rs.length = ct.c.length := by
    rw [hp.length_eq, List.length_zipWith, ← hF.length_eq, ← hF'.length_eq]; omega
  have hc := h.parts
  refine ⟨{ ct with seed := none, c := rs }, ?_, ?_, hl, rfl⟩
  · unfold sub
    rw [h.par_eq, h'.par_eq, ptrEq_self, check_eq rfl, Option.bind_eq_bind, Option.bind_some, if_neg (ne_nil_of_two hc), if_neg (ne_nil_of_two h'.parts),
      check_eq (by rw [h.level_eq, h'.level_eq]), Option.bind_some, check_eq hlen, Option.bind_some, e]
    rw [← h.par_eq]; rfl
  · refine Encrypts.intro ha h.par_eq h.level_eq (by show 2 ≤ rs.length; omega) hp (M := M - M') (by rw [red_sub, hM, hM']) ?_
    rw [phase_sub s (by rw [← hF.length_eq, ← hF'.length_eq, hlen]), mul_sub, hph, hph']; ring

theorem mulPlain_eq (hw : ParWF b n par.toBfvParameters) (h : ct.Encrypts par s i m v) {pt : Plaintext} (hpt : pt.Holds par i m') :
    ∃ r, ct.mulPlain pt = some r ∧ r.Encrypts par s i (m * m') (v * msgInt m') ∧ r.c.length = ct.c.length ∧ r.seed = none := by
  have ht := hw.t_pos
  have : NeZero par.plaintext.value := ⟨by omega⟩
  obtain ⟨l, F, M, ha, hF, hM, hph⟩ := h.elim hw
  have hP := Plaintext.polyNtt_encI hw ha hpt
  obtain ⟨rs, e, hp⟩ := Parts.mul ha.wf ha.deg (vt := pt.polyNtt.vt) (msgInt m') hF
  rw [← hP] at e
  have hl : rs.length = ct.c.length := by rw [hp.length_eq, List.length_map, ← hF.length_eq]
  have hc := h.parts
  refine ⟨{ ct with seed := none, c := rs }, ?_, ?_, hl, rfl⟩
  · unfold mulPlain
    rw [h.par_eq, hpt.par_eq, ptrEq_self, check_eq rfl, Option.bind_eq_bind, Option.bind_some, if_neg (ne_nil_of_two hc),
      hpt.level_eq hw ha, Option.bind_eq_bind, Option.bind_some, check_eq h.level_eq, Option.bind_some, Option.bind_eq_bind, e]
    rw [← h.par_eq]; rfl
  · refine Encrypts.intro ha h.par_eq h.level_eq (by show 2 ≤ rs.length; omega) hp (M := M * msgInt m') (by rw [red_mul, hM, red_msgInt]) ?_
    rw [phase_mul s, ← mul_assoc, hph]; ring

theorem addPlain_eq (hw : ParWF b n par.toBfvParameters) (hQ : par.plaintext.value ≤ par.modulusAt i) (h : ct.Encrypts par s i m v) {pt : Plaintext} (hpt : pt.Holds par i m') :
    ∃ r, ct.addPlain pt = some r ∧ r.Encrypts par s i (m + m') (v - scaleRest (par.modulusAt i) m') ∧ r.c.length = ct.c.length ∧ r.seed = none := by
  have ht := hw.t_pos
  have : NeZero par.plaintext.value := ⟨by omega⟩
  obtain ⟨l, F, M, ha, hF, hM, hph⟩ := h.elim hw
  have hP := Plaintext.toPoly_encI hw ha hQ hpt
  have hc := h.parts
  cases hcc : ct.c with
  | nil => rw [hcc] at hc; simp at hc
  | cons p ps =>
    rw [hcc] at hF hc
    cases hF with
    | @cons _ f _ F h1 h2 =>
      obtain ⟨vt, rfl⟩ := h1
      refine ⟨{ ct with seed := none, c := encI l.ctx .ntt (vt && false) (f + scaleMsg (par.modulusAt i) m') :: ps }, ?_, ?_, by simp, rfl⟩
      · unfold addPlain
        rw [h.par_eq, hpt.par_eq, ptrEq_self, check_eq rfl, Option.bind_eq_bind, Option.bind_some, hcc]
        simp only []
        rw [hpt.level_eq hw ha, Option.bind_eq_bind, Option.bind_some, check_eq h.level_eq, Option.bind_some, Option.bind_eq_bind, hP, Option.bind_some,
          addAssign_encI ha.wf ha.deg (by simp)]
        rfl
      · refine Encrypts.intro ha h.par_eq h.level_eq (by simpa using hc) (.cons ⟨_, rfl⟩ h2) (M := M + msgInt m') (by rw [red_add, hM, red_msgInt]) ?_
        rw [phase_cons] at hph ⊢
        have e := scaleMsg_mul (par.modulusAt i) m'
        linear_combination hph + e

theorem subPlain_eq (hw : ParWF b n par.toBfvParameters) (hQ : par.plaintext.value ≤ par.modulusAt i) (h : ct.Encrypts par s i m v) {pt : Plaintext} (hpt : pt.Holds par i m') :
    ∃ r, ct.subPlain pt = some r ∧ r.Encrypts par s i (m - m') (v + scaleRest (par.modulusAt i) m') ∧ r.c.length = ct.c.length ∧ r.seed = none := by
  have ht := hw.t_pos
  have : NeZero par.plaintext.value := ⟨by omega⟩
  obtain ⟨l, F, M, ha, hF, hM, hph⟩ := h.elim hw
  have hP := Plaintext.toPoly_encI hw ha hQ hpt
  have hc := h.parts
  cases hcc : ct.c with
  | nil => rw [hcc] at hc; simp at hc
  | cons p ps =>
    rw [hcc] at hF hc
    cases hF with
    | @cons _ f _ F h1 h2 =>
      obtain ⟨vt, rfl⟩ := h1
      refine ⟨{ ct with seed := none, c := encI l.ctx .ntt (vt && false) (f - scaleMsg (par.modulusAt i) m') :: ps }, ?_, ?_, by simp, rfl⟩
      · unfold subPlain
        rw [h.par_eq, hpt.par_eq, ptrEq_self, check_eq rfl, Option.bind_eq_bind, Option.bind_some, hcc]
        simp only []
        rw [hpt.level_eq hw ha, Option.bind_eq_bind, Option.bind_some, check_eq h.level_eq, Option.bind_some, Option.bind_eq_bind, hP, Option.bind_some,
          subAssign_encI ha.wf ha.deg (by simp)]
        rfl
      · refine Encrypts.intro ha h.par_eq h.level_eq (by simpa using hc) (.cons ⟨_, rfl⟩ h2) (M := M - msgInt m') (by rw [red_sub, hM, red_msgInt]) ?_
        rw [phase_cons] at hph ⊢
        have e := scaleMsg_mul (par.modulusAt i) m'
        linear_combination hph - e

/-! ## Modulus switching -/

/-- Division by `q` rounded to the nearest integer. -/
def roundI (q : Nat) (F : IntPoly N) : IntPoly N := Nega.mapFn (fun x : Int => (x + (q / 2 : Nat)) / q) F

/-- The rounding error. -/
theorem roundI_err {q : Nat} (hq : 0 < q) (F : IntPoly N) : ∃ δ : IntPoly N, δ.Bounded (q / 2) ∧ F = C (q : Int) * roundI q F + δ := by
  refine ⟨F - C (q : Int) * roundI q F, fun j => ?_, by ring⟩
  rw [Nega.sub_apply, C_mul_apply]
  show |F j - q * ((F j + (q / 2 : Nat)) / q)| ≤ _
  have h1 := Int.mul_ediv_add_emod (F j + (q / 2 : Nat)) q
  have h2 := Int.emod_nonneg (F j + (q / 2 : Nat)) (show (q : Int) ≠ 0 by omega)
  have h3 := Int.emod_lt_of_pos (F j + (q / 2 : Nat)) (show (0 : Int) < q by omega)
  rw [abs_le]
  constructor <;> omega

theorem switchOnce_eq (ha : AtLevel b n par i l) {l' : ContextLevel} (ha' : AtLevel b n par (i + 1) l') {vt : Bool} (F : IntPoly par.degree) :
    l.ctx.next = some l'.ctx ∧ Poly.switchDown (encI l.ctx .powerBasis vt F) = some (.ok (encI l'.ctx .powerBasis vt (roundI (l.ctx.moduli.getLastD 0) F))) ∧
      l.ctx.modulus = l.ctx.moduli.getLastD 0 * l'.ctx.modulus ∧ 0 < l.ctx.moduli.getLastD 0 := by
  have h0 := ha.wf.neZero
  have h0' := ha'.wf.neZero
  have hlt := ha'.lt
  have hlen := ha.length
  obtain ⟨c', e1, e2, e3⟩ := ha.wf.next_some (by omega)
  have hl' : l'.ctx.moduli = l.ctx.moduli.dropLast := by
    rw [ha'.moduli, ha.moduli, List.dropLast_eq_take, List.take_take]; congr 1; rw [List.length_take]; omega
  obtain rfl : c' = l'.ctx := e2.eq_of_moduli ha'.wf (by rw [e3, hl'])
  have hmod : l.ctx.modulus = l.ctx.moduli.getLastD 0 * l'.ctx.modulus := by
    rw [ha.wf.modulus_eq, ha'.wf.modulus_eq, hl']
    have hne : l.ctx.moduli ≠ [] := List.ne_nil_of_length_pos (by omega)
    conv_lhs => rw [← List.dropLast_append_getLast hne, List.prod_append]
    rw [List.getLastD_eq_getLast?, List.getLast?_eq_some_getLast hne]
    simp [mul_comm]
  have hq : 0 < l.ctx.moduli.getLastD 0 := by
    rcases Nat.eq_zero_or_pos (l.ctx.moduli.getLastD 0) with h | h
    · rw [h, zero_mul] at hmod; exact absurd hmod (NeZero.ne _)
    · exact h
  refine ⟨e1, ?_, hmod, hq⟩
  have key : roundDiv l'.ctx.degree l'.ctx.modulus (l.ctx.moduli.getLastD 0) (ofInt l.ctx F) = ofInt l'.ctx (roundI (l.ctx.moduli.getLastD 0) F) := by
    generalize l.ctx.moduli.getLastD 0 = q at *
    apply Nega.ext; intro j
    have hj : j.val < par.degree := by rw [← ha'.deg]; exact j.isLt
    show ((((coeff (ofInt l.ctx F) j.val).val + q / 2) / q : Nat) : ZMod l'.ctx.modulus) = ((coeff (roundI q F) j.val : Int) : ZMod l'.ctx.modulus)
    rw [coeff_ofInt ha.deg, coeff_of_lt _ hj, coeff_of_lt _ hj]
    show _ = (((F ⟨j.val, hj⟩ + (q / 2 : Nat)) / (q : Int) : Int) : ZMod l'.ctx.modulus)
    generalize F ⟨j.val, hj⟩ = x
    have hx := ZMod.val_intCast (n := l.ctx.modulus) x
    rw [← Int.cast_natCast, ZMod.intCast_eq_intCast_iff_dvd_sub]
    push_cast
    rw [hx]
    have e := Int.mul_ediv_add_emod x l.ctx.modulus
    have : (x + ((q / 2 : Nat) : Int)) / (q : Int) = (x % (l.ctx.modulus : Int) + ((q / 2 : Nat) : Int)) / q + l'.ctx.modulus * (x / l.ctx.modulus) := by
      rw [← Int.add_mul_ediv_left _ _ (show (q : Int) ≠ 0 by omega)]
      congr 1
      have e2 : (l.ctx.modulus : Int) = q * l'.ctx.modulus := by rw [hmod]; push_cast; rfl
      have e3 := congrArg (· * (x / (l.ctx.modulus : Int))) e2
      beta_reduce at e3
      linarith
    rw [show ((q : Int) / 2) = ((q / 2 : Nat) : Int) by push_cast; rfl, this, add_sub_cancel_left]
    exact dvd_mul_right _ _
  unfold encI
  rw [switchDown_enc ha.wf e1 e2 e3, key]

theorem switchPoly_eq (ha : AtLevel b n par i l) {l' : ContextLevel} (ha' : AtLevel b n par (i + 1) l') {vt : Bool} (F : IntPoly par.degree) :
    switchPoly (encI l.ctx .ntt vt F) = Res.ok (encI l'.ctx .ntt vt (roundI (l.ctx.moduli.getLastD 0) F)) ∧
      l.ctx.modulus = l.ctx.moduli.getLastD 0 * l'.ctx.modulus ∧ 0 < l.ctx.moduli.getLastD 0 := by
  obtain ⟨-, e, hmod, hq⟩ := switchOnce_eq ha ha' (vt := vt) F
  refine ⟨?_, hmod, hq⟩
  unfold switchPoly
  rw [nttToPowerBasis_encI ha.wf, Res.lift_some, Res.ok_bind, e, Res.math_ok, Res.ok_bind]
  unfold encI
  rw [intoNtt_enc ha'.wf, Res.lift_some]

theorem mapM_switch (ha : AtLevel b n par i l) {l' : ContextLevel} (ha' : AtLevel b n par (i + 1) l') : ∀ {ps : List (Poly .ntt)} {F : List (IntPoly par.degree)}, Parts l.ctx ps F →
    ∃ rs, ps.mapM switchPoly = Res.ok rs ∧ Parts l'.ctx rs (F.map (roundI (l.ctx.moduli.getLastD 0)))
  | _, _, .nil => ⟨[], by simp [Res.pure_eq], by simp⟩
  | _, _, .cons ⟨v1, rfl⟩ h2 => by
    obtain ⟨rs, e, hp⟩ := mapM_switch ha ha' h2
    exact ⟨_ :: rs, by rw [List.mapM_cons, e, (switchPoly_eq ha ha' _).1]; rfl, .cons ⟨_, rfl⟩ hp⟩

theorem exists_round {q : Nat} (hq : 0 < q) (s : IntPoly N) : ∀ F : List (IntPoly N), ∃ D : List (IntPoly N), D.length = F.length ∧ (∀ d ∈ D, d.Bounded (q / 2)) ∧
    Fhe.phase s F = C (q : Int) * Fhe.phase s (F.map (roundI q)) + Fhe.phase s D
  | [] => ⟨[], rfl, by simp, by simp [phase_nil]⟩
  | f :: F => by
    obtain ⟨D, h1, h2, h3⟩ := exists_round hq s F
    obtain ⟨δ, h4, h5⟩ := roundI_err hq f
    refine ⟨δ :: D, by simp [h1], ?_, ?_⟩
    · intro d hd
      rcases List.mem_cons.1 hd with rfl | hd
      · exact h4
      · exact h2 d hd
    · rw [phase_cons, List.map_cons, phase_cons, phase_cons, h3]
      linear_combination h5

theorem switchDown_eq (hw : ParWF b n par.toBfvParameters) (h : ct.Encrypts par s i m v) (hi : i + 1 < par.moduli.length) :
    ∃ (r : Ciphertext) (v' : IntPoly par.degree) (q : Nat) (D : List (IntPoly par.degree)), ct.switchDown = Res.ok r ∧ r.Encrypts par s (i + 1) m v' ∧ r.c.length = ct.c.length ∧ r.seed = none ∧
      par.moduli[par.moduli.length - 1 - i]? = some q ∧ D.length = ct.c.length ∧ (∀ d ∈ D, d.Bounded (q / 2)) ∧ C (q : Int) * v' = v - C (par.plaintext.value : Int) * Fhe.phase s D := by
  obtain ⟨l, F, M, ha, hF, hM, hph⟩ := h.elim hw
  obtain ⟨l', ha'⟩ := AtLevel.ofLt (par := par) hw hi
  obtain ⟨rs, e, hp⟩ := mapM_switch ha ha' hF
  obtain ⟨-, hmod, hq⟩ := switchPoly_eq ha ha' (vt := false) 0
  obtain ⟨D, h1, h2, h3⟩ := exists_round hq s F
  have hl : rs.length = ct.c.length := by rw [hp.length_eq, List.length_map, ← hF.length_eq]
  have hc := h.parts
  have hgl : par.moduli[par.moduli.length - 1 - i]? = some (l.ctx.moduli.getLastD 0) := by
    rw [ha.moduli, List.getLastD_eq_getLast?, List.getLast?_eq_getElem?, List.length_take, List.getElem?_take, if_pos (by omega),
      show min (par.moduli.length - i) par.moduli.length - 1 = par.moduli.length - 1 - i by omega, List.getElem?_eq_getElem (by omega)]
    rfl
  refine ⟨{ ct with seed := none, c := rs, level := ct.level + 1 },
    C (par.plaintext.value : Int) * Fhe.phase s (F.map (roundI (l.ctx.moduli.getLastD 0))) - C (par.modulusAt (i + 1) : Int) * M, l.ctx.moduli.getLastD 0, D, ?_, ?_, hl, rfl, hgl,
    by rw [h1, hF.length_eq], h2, ?_⟩
  · unfold switchDown BfvParameters.maxLevel
    rw [h.par_eq, hw.length, subU_eq (by omega), Res.lift_some, Res.ok_bind, h.level_eq, if_neg (by omega), e, Res.ok_bind]
    rw [← h.par_eq]; rfl
  · refine Encrypts.intro ha' h.par_eq (by show ct.level + 1 = _; rw [h.level_eq]) (by show 2 ≤ rs.length; omega) hp (M := M) hM ?_
    ring
  · have hQ : (C (par.modulusAt i : Int) : IntPoly par.degree) = C ((l.ctx.moduli.getLastD 0 : Nat) : Int) * C (par.modulusAt (i + 1) : Int) := by
      rw [← map_mul, ← ha.mod, ← ha'.mod, hmod]; push_cast; rfl
    rw [hQ] at hph
    linear_combination hph - C (par.plaintext.value : Int) * h3

end Ciphertext
end Fhe
