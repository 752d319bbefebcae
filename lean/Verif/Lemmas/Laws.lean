import Verif.Lemmas.Robust
import Mathlib.Algebra.Polynomial.Basic
import Mathlib.Algebra.Polynomial.Coeff
/-!
# Exact results of the operations on ciphertexts
-/
namespace Fhe
open Nega Poly Ciphertext

variable {b : Build} {n N : Nat} {par : Par} {i : Nat} {l : ContextLevel} {c : Context}

theorem zipWith_comm' (F G : List (IntPoly N)) : List.zipWith (· + ·) F G = List.zipWith (· + ·) G F := List.zipWith_comm_of_comm (fun a b => add_comm a b)

theorem zipWith_assoc' : ∀ F G H : List (IntPoly N), List.zipWith (· + ·) (List.zipWith (· + ·) F G) H = List.zipWith (· + ·) F (List.zipWith (· + ·) G H)
  | [], _, _ => by simp
  | _ :: _, [], _ => by simp
  | _ :: _, _ :: _, [] => by simp
  | f :: F, g :: G, h :: H => by simp only [List.zipWith_cons_cons, zipWith_assoc' F G H, add_assoc]

theorem zipWith_sub_add : ∀ F G : List (IntPoly N), F.length = G.length → List.zipWith (· - ·) (List.zipWith (· + ·) F G) G = F
  | [], _, _ => by simp
  | _ :: _, [], h => by simp at h
  | f :: F, g :: G, h => by simp only [List.zipWith_cons_cons, zipWith_sub_add F G (by simpa using h), add_sub_cancel_right]

theorem zipWith_sub_eq : ∀ F G : List (IntPoly N), List.zipWith (· - ·) F G = List.zipWith (· + ·) F (G.map (- ·))
  | [], _ => by simp
  | _ :: _, [] => by simp
  | f :: F, g :: G => by rw [List.zipWith_cons_cons, List.map_cons, List.zipWith_cons_cons, zipWith_sub_eq F G, sub_eq_add_neg]

theorem zipWith_mul : ∀ (F G : List (IntPoly N)) (P : IntPoly N), (List.zipWith (· + ·) F G).map (· * P) = List.zipWith (· + ·) (F.map (· * P)) (G.map (· * P))
  | [], _, _ => by simp
  | _ :: _, [], _ => by simp
  | f :: F, g :: G, P => by simp only [List.zipWith_cons_cons, List.map_cons, zipWith_mul F G P, add_mul]

namespace Ciphertext
variable {a d r : Ciphertext} {F G : List (IntPoly par.degree)} {pt : Plaintext} {m : par.Msg}

/-- The ciphertext has the given level and parts. -/
structure Is (par : Par) (i : Nat) (l : ContextLevel) (a : Ciphertext) (F : List (IntPoly par.degree)) : Prop where
  par_eq : a.par = par
  level_eq : a.level = i
  parts : Parts l.ctx a.c F

theorem Usable.is (hw : ParWF b n par.toBfvParameters) (h : a.Usable par) (ha : AtLevel b n par a.level l) : ∃ F, a.Is par a.level l F ∧ F.length = a.c.length ∧ 2 ≤ F.length := by
  obtain ⟨l', F, ha', hF⟩ := h.parts_eq hw
  obtain rfl := ha.unique ha'
  exact ⟨F, ⟨h.par_eq, rfl, hF⟩, hF.length_eq.symm, by rw [← hF.length_eq]; exact h.parts⟩

theorem Is.ne_nil (h : a.Is par i l F) (hF : 2 ≤ F.length) : a.c ≠ [] := ne_nil_of_two (by rw [h.parts.length_eq]; exact hF)

theorem Parts.beq_self : ∀ {ps qs : List (Poly .ntt)} {F : List (IntPoly N)}, Parts c ps F → Parts c qs F → ((ps.zip qs).all fun x => x.1.beq x.2) = true
  | _, _, _, .nil, .nil => rfl
  | _, _, _, .cons ⟨v, h⟩ hp, .cons ⟨v', h'⟩ hq => by
    rw [List.zip_cons_cons, List.all_cons, Parts.beq_self hp hq, Bool.and_true]
    subst h h'
    exact beq_iff.2 rfl

theorem Is.beq (h : a.Is par i l F) (h' : d.Is par i l F) (hs : a.seed = d.seed) : a.beq d = true := by
  unfold Ciphertext.beq
  rw [h.par_eq, h'.par_eq, h.level_eq, h'.level_eq, hs, h.parts.length_eq, h'.parts.length_eq, Parts.beq_self h.parts h'.parts]
  simp

theorem Is.clear (h : a.Is par i l F) : ({ a with seed := none } : Ciphertext).Is par i l F := ⟨h.par_eq, h.level_eq, h.parts⟩

theorem Is.usable (ha : AtLevel b n par i l) (h : a.Is par i l F) (hF : 2 ≤ F.length) : a.Usable par :=
  ⟨h.par_eq, by rw [h.level_eq]; exact ha.lt, by rw [h.parts.length_eq]; exact hF, fun p hp => ⟨h.parts.valid ha.wf p hp, by rw [h.level_eq, h.parts.ctx p hp]; exact ha.contextAt⟩⟩

theorem Is.add (ha : AtLevel b n par i l) (h : a.Is par i l F) (h' : d.Is par i l G) (hF : 2 ≤ F.length) (hl : F.length = G.length) :
    ∃ r, a.add d = some r ∧ r.seed = none ∧ r.Is par i l (List.zipWith (· + ·) F G) := by
  obtain ⟨rs, e, hp⟩ := Parts.add ha.wf ha.deg h.parts h'.parts
  refine ⟨{ a with seed := none, c := rs }, ?_, rfl, h.par_eq, h.level_eq, hp⟩
  unfold Ciphertext.add
  rw [h.par_eq, h'.par_eq, ptrEq_self, check_eq rfl, Option.bind_eq_bind, Option.bind_some, if_neg (h.ne_nil hF), if_neg (h'.ne_nil (hl ▸ hF)),
    check_eq (by rw [h.level_eq, h'.level_eq]), Option.bind_some, check_eq (by rw [h.parts.length_eq, h'.parts.length_eq, hl]), Option.bind_some, e]
  rw [← h.par_eq]; rfl

theorem Is.sub (ha : AtLevel b n par i l) (h : a.Is par i l F) (h' : d.Is par i l G) (hF : 2 ≤ F.length) (hl : F.length = G.length) :
    ∃ r, a.sub d = some r ∧ r.seed = none ∧ r.Is par i l (List.zipWith (· - ·) F G) := by
  obtain ⟨rs, e, hp⟩ := Parts.sub ha.wf ha.deg h.parts h'.parts
  refine ⟨{ a with seed := none, c := rs }, ?_, rfl, h.par_eq, h.level_eq, hp⟩
  unfold Ciphertext.sub
  rw [h.par_eq, h'.par_eq, ptrEq_self, check_eq rfl, Option.bind_eq_bind, Option.bind_some, if_neg (h.ne_nil hF), if_neg (h'.ne_nil (hl ▸ hF)),
    check_eq (by rw [h.level_eq, h'.level_eq]), Option.bind_some, check_eq (by rw [h.parts.length_eq, h'.parts.length_eq, hl]), Option.bind_some, e]
  rw [← h.par_eq]; rfl

theorem Is.neg (ha : AtLevel b n par i l) (h : a.Is par i l F) : ∃ r, a.neg = some r ∧ r.seed = none ∧ r.Is par i l (F.map (- ·)) := by
  obtain ⟨rs, e, hp⟩ := Parts.neg ha.wf ha.deg h.parts
  refine ⟨{ a with seed := none, c := rs }, ?_, rfl, h.par_eq, h.level_eq, hp⟩
  unfold Ciphertext.neg
  rw [Option.bind_eq_bind, e]; rfl

theorem Is.mulPlain (hw : ParWF b n par.toBfvParameters) (ha : AtLevel b n par i l) (h : a.Is par i l F) (hF : 2 ≤ F.length) (hpt : pt.Holds par i m) :
    ∃ r, a.mulPlain pt = some r ∧ r.seed = none ∧ r.Is par i l (F.map (· * msgInt m)) := by
  have hP := Plaintext.polyNtt_encI hw ha hpt
  obtain ⟨rs, e, hp⟩ := Parts.mul ha.wf ha.deg (vt := pt.polyNtt.vt) (msgInt m) h.parts
  rw [← hP] at e
  refine ⟨{ a with seed := none, c := rs }, ?_, rfl, h.par_eq, h.level_eq, hp⟩
  unfold Ciphertext.mulPlain
  rw [h.par_eq, hpt.par_eq, ptrEq_self, check_eq rfl, Option.bind_eq_bind, Option.bind_some, if_neg (h.ne_nil hF), hpt.level_eq hw ha, Option.bind_eq_bind, Option.bind_some, check_eq h.level_eq, Option.bind_some, Option.bind_eq_bind, e]
  rw [← h.par_eq]; rfl

theorem Is.addPlain (hw : ParWF b n par.toBfvParameters) (ha : AtLevel b n par i l) (hQ : par.plaintext.value ≤ par.modulusAt i) {f : IntPoly par.degree} (h : a.Is par i l (f :: F)) (hpt : pt.Holds par i m) :
    ∃ r, a.addPlain pt = some r ∧ r.seed = none ∧ r.Is par i l ((f + scaleMsg (par.modulusAt i) m) :: F) := by
  have hP := Plaintext.toPoly_encI hw ha hQ hpt
  have hparts := h.parts
  cases hcc : a.c with
  | nil => rw [hcc] at hparts; cases hparts
  | cons p ps =>
    rw [hcc] at hparts
    cases hparts with
    | cons h1 h2 =>
      obtain ⟨vt, rfl⟩ := h1
      refine ⟨{ a with seed := none, c := encI l.ctx .ntt (vt && false) (f + scaleMsg (par.modulusAt i) m) :: ps }, ?_, rfl, h.par_eq, h.level_eq, .cons ⟨_, rfl⟩ h2⟩
      unfold Ciphertext.addPlain
      rw [h.par_eq, hpt.par_eq, ptrEq_self, check_eq rfl, Option.bind_eq_bind, Option.bind_some, hcc]
      simp only []
      rw [hpt.level_eq hw ha, Option.bind_eq_bind, Option.bind_some, check_eq h.level_eq, Option.bind_some, Option.bind_eq_bind, hP, Option.bind_some, addAssign_encI ha.wf ha.deg (by simp)]
      rfl

theorem Is.subPlain (hw : ParWF b n par.toBfvParameters) (ha : AtLevel b n par i l) (hQ : par.plaintext.value ≤ par.modulusAt i) {f : IntPoly par.degree} (h : a.Is par i l (f :: F)) (hpt : pt.Holds par i m) :
    ∃ r, a.subPlain pt = some r ∧ r.seed = none ∧ r.Is par i l ((f - scaleMsg (par.modulusAt i) m) :: F) := by
  have hP := Plaintext.toPoly_encI hw ha hQ hpt
  have hparts := h.parts
  cases hcc : a.c with
  | nil => rw [hcc] at hparts; cases hparts
  | cons p ps =>
    rw [hcc] at hparts
    cases hparts with
    | cons h1 h2 =>
      obtain ⟨vt, rfl⟩ := h1
      refine ⟨{ a with seed := none, c := encI l.ctx .ntt (vt && false) (f - scaleMsg (par.modulusAt i) m) :: ps }, ?_, rfl, h.par_eq, h.level_eq, .cons ⟨_, rfl⟩ h2⟩
      unfold Ciphertext.subPlain
      rw [h.par_eq, hpt.par_eq, ptrEq_self, check_eq rfl, Option.bind_eq_bind, Option.bind_some, hcc]
      simp only []
      rw [hpt.level_eq hw ha, Option.bind_eq_bind, Option.bind_some, check_eq h.level_eq, Option.bind_some, Option.bind_eq_bind, hP, Option.bind_some, subAssign_encI ha.wf ha.deg (by simp)]
      rfl

/-- Adding up a list. -/
theorem Is.sum (ha : AtLevel b n par i l) (rep : Ciphertext → List (IntPoly par.degree)) : ∀ {ds : List Ciphertext} {a : Ciphertext} {F : List (IntPoly par.degree)}, a.Is par i l F → 2 ≤ F.length →
    (∀ d ∈ ds, d.Is par i l (rep d) ∧ (rep d).length = F.length) → ∃ r, ds.foldlM (fun x y => x.add y) a = some r ∧ (r.seed = if ds = [] then a.seed else none) ∧
      r.Is par i l ((ds.map rep).foldl (fun x y => List.zipWith (· + ·) x y) F)
  | [], a, F, h, _, _ => ⟨a, rfl, by simp, h⟩
  | d :: ds, a, F, h, hF, hd => by
    obtain ⟨h1, h2⟩ := hd d (by simp)
    obtain ⟨x, e1, e2, e3⟩ := h.add ha h1 hF h2.symm
    have hlen : (List.zipWith (· + ·) F (rep d)).length = F.length := by rw [List.length_zipWith, h2]; omega
    obtain ⟨r, e4, e5, e6⟩ := Is.sum ha rep (ds := ds) e3 (by omega) fun y hy => by rw [hlen]; exact hd y (by simp [hy])
    refine ⟨r, by rw [List.foldlM_cons, e1]; exact e4, ?_, e6⟩
    rw [e5, e2]; simp

/-! ## Multiplication -/

/-- The parts as the coefficients of a polynomial. -/
noncomputable def partsPoly : List (IntPoly N) → Polynomial (IntPoly N)
  | [] => 0
  | f :: F => Polynomial.C f + Polynomial.X * partsPoly F

theorem partsPoly_inj : ∀ {F G : List (IntPoly N)}, F.length = G.length → partsPoly F = partsPoly G → F = G
  | [], [], _, _ => rfl
  | [], _ :: _, h, _ => by simp at h
  | _ :: _, [], h, _ => by simp at h
  | f :: F, g :: G, h, e => by
    rw [partsPoly, partsPoly] at e
    have e0 : f = g := by
      have := congrArg (fun p => Polynomial.coeff p 0) e
      simpa using this
    subst e0
    have e1 : Polynomial.X * partsPoly F = Polynomial.X * partsPoly G := add_left_cancel e
    rw [partsPoly_inj (F := F) (G := G) (by simpa using h) (Polynomial.ext fun k => by
      have := congrArg (fun p => Polynomial.coeff p (k + 1)) e1
      simpa only [Polynomial.coeff_X_mul] using this)]

theorem mulRowI_poly (f : IntPoly N) : ∀ G H : List (IntPoly N), G.length ≤ H.length → partsPoly (mulRowI f G H) = partsPoly H + Polynomial.C f * partsPoly G
  | [], H, _ => by rw [mulRowI, partsPoly, MulZeroClass.mul_zero, add_zero]
  | _ :: _, [], h => by simp at h
  | g :: G, h :: H, hl => by rw [mulRowI, partsPoly, partsPoly, partsPoly, mulRowI_poly f G H (by simpa using hl), map_add, map_mul]; ring

theorem mulAllI_poly : ∀ F G H : List (IntPoly N), G ≠ [] → F.length + G.length ≤ H.length + 1 → partsPoly (mulAllI F G H) = partsPoly H + partsPoly F * partsPoly G
  | [], _, _, _, _ => by rw [mulAllI, partsPoly, zero_mul, add_zero]
  | f :: F, G, H, hG, hl => by
    have hg := List.length_pos_of_ne_nil hG
    simp only [List.length_cons] at hl
    have h1 := mulRowI_length f G H (by omega)
    have h2 := mulRowI_poly f G H (by omega)
    rw [mulAllI]
    cases hr : mulRowI f G H with
    | nil => rw [hr] at h1; simp at h1; omega
    | cons h T =>
      rw [hr, List.length_cons] at h1
      rw [hr, partsPoly] at h2
      simp only []
      rw [partsPoly, partsPoly]
      cases F with
      | nil => rw [mulAllI, partsPoly]; linear_combination h2
      | cons f' F =>
        simp only [List.length_cons] at hl
        rw [mulAllI_poly (f' :: F) G T hG (by simp only [List.length_cons]; omega)]
        linear_combination h2

theorem mulAllI_comm {F G H : List (IntPoly N)} (hF : F ≠ []) (hG : G ≠ []) (hl : F.length + G.length ≤ H.length + 1) : mulAllI F G H = mulAllI G F H := by
  apply partsPoly_inj
  · rw [mulAllI_length F G H hG hl, mulAllI_length G F H hF (by omega)]
  · rw [mulAllI_poly F G H hG hl, mulAllI_poly G F H hF (by omega), mul_comm]

/-- Mapping a scaler over parts. -/
theorem mapM_scale_map {c c' : Context} {S : Scaler} {f : IntPoly N → IntPoly N} (hS : ∀ X vt, S.scale (encI c .ntt vt X) = some (.ok (encI c' .ntt vt (f X)))) :
    ∀ {ps : List (Poly .ntt)} {F : List (IntPoly N)}, Parts c ps F → ∃ rs, (ps.mapM fun ci => unwrapMath (S.scale ci)) = some rs ∧ Parts c' rs (F.map f) ∧ ∀ G, Parts c ps G → Parts c' rs (G.map f)
  | _, _, .nil => ⟨[], by simp, .nil, fun _ h => by cases h; exact .nil⟩
  | _, _, .cons (a := p) (b := x) ⟨vt, hp⟩ hrest => by
    obtain ⟨rs, h1, h2, h3⟩ := mapM_scale_map hS hrest
    subst hp
    refine ⟨encI c' .ntt vt (f x) :: rs, ?_, .cons ⟨vt, rfl⟩ h2, fun G hG => ?_⟩
    · rw [List.mapM_cons, hS, Res.unwrapMath_ok, h1]; rfl
    · cases hG with
      | @cons _ g _ G hg hG =>
        obtain ⟨vt', e⟩ := hg
        refine .cons ⟨vt', ?_⟩ (h3 G hG)
        have := hS x vt
        rw [e, hS] at this
        simpa using this.symm

/-- Scaling zero gives zero. -/
theorem scaled_zero {Q num den : Nat} (hQ : 0 < Q) (hd : den ≠ 0) {A Z E H : IntPoly N} (hX : (0 : IntPoly N) = A + C (Q : Int) * H) (hA : AlmostCentered Q A) (hZ : C (den : Int) * Z = C (num : Int) * A + E)
    (hE : ∀ j, 2 ^ 62 * |E j| ≤ (2 ^ 61 + 1) * den) : Z = 0 := by
  have hA0 : A = 0 := funext fun j => by
    have h1 := congrFun hX j
    rw [Nega.add_apply, C_mul_apply] at h1
    have h2 := hA j
    by_contra hc
    have h3 : (Q : Int) ≤ |A j| := by
      have : (Q : Int) ∣ A j := ⟨-H j, by have : (0 : IntPoly N) j = 0 := rfl; rw [this] at h1; linarith⟩
      exact Int.le_of_dvd (abs_pos.2 hc) ((dvd_abs _ _).2 this)
    have hQ' : (0 : Int) < Q := by exact_mod_cast hQ
    have h4 : (Q : Int) * (2 ^ 55 + 1) < 2 * |A j| * 2 ^ 55 := by nlinarith
    omega
  funext j
  have h1 := congrFun hZ j
  rw [hA0, MulZeroClass.mul_zero, zero_add, C_mul_apply] at h1
  have h2 := hE j
  rw [← h1, abs_mul, Nat.abs_cast] at h2
  have hd' : (0 : Int) < den := by exact_mod_cast Nat.pos_of_ne_zero hd
  by_contra hc
  have h3 : 1 ≤ |Z j| := Int.one_le_abs hc
  nlinarith

/-- The parts of a product, in terms of what the scalers of the level compute; they map zero to zero. -/
theorem Is.mul_scalers_zero (hw : ParWF b n par.toBfvParameters) (hcount : par.moduli.length ≤ 31) (hsum : par.moduli.sum ≤ 2 ^ 65) (ha : AtLevel b n par i l) :
    ∃ ext down : IntPoly par.degree → IntPoly par.degree, ext 0 = 0 ∧ down 0 = 0 ∧ (∀ X vt, l.mul.extender.scale (encI l.ctx .ntt vt X) = some (.ok (encI l.mul.dst .ntt vt (ext X)))) ∧
      (∀ X vt, l.mul.downScaler.scale (encI l.mul.dst .ntt vt X) = some (.ok (encI l.ctx .ntt vt (down X)))) ∧
      ∀ {a d : Ciphertext} {F G : List (IntPoly par.degree)}, a.Is par i l F → d.Is par i l G → 2 ≤ F.length → 2 ≤ G.length →
      ∃ r, a.mul d = some r ∧ r.seed = none ∧ r.Is par i l ((mulAllI (F.map ext) (G.map ext) (List.replicate (F.length + G.length - 1) 0)).map down) := by
  have hm := ha.mulWF hw hcount hsum
  have := ha.wf.neZero
  obtain ⟨pc, hpc, hlevs⟩ := hw.levels
  have hL := (hlevs i l ha.get).extender
  obtain ⟨F', S', e1, e2, hscale⟩ := Scaler.scale_encI ha.wf hm.wf ha.deg hm.deg (by rw [ha.length]; omega) (num := 1) (den := 1) (by norm_num)
    (by simp [Spec.scalerRoom])
  have hone : ScalingFactor.new 1 1 = some ScalingFactor.one := rfl
  rw [hone] at e1
  obtain rfl : ScalingFactor.one = F' := by simpa using e1
  rw [hL] at e2
  obtain rfl : l.mul.extender = S' := by simpa using e2
  obtain ⟨SF, hSF, hS⟩ := (hlevs i l ha.get).down
  obtain ⟨F', S', e1, e2, hscale'⟩ := Scaler.scale_encI hm.wf ha.wf hm.deg ha.deg hm.count (num := par.plaintext.value) (den := l.ctx.modulus) (NeZero.ne _) hm.room
  rw [hSF] at e1
  obtain rfl : SF = F' := by simpa using e1
  rw [hS] at e2
  obtain rfl : l.mul.downScaler = S' := by simpa using e2
  choose A ext E hX hA hZ hE _ hext using hscale
  choose A' down E' hX' hA' hZ' hE' _ hdown using hscale'
  have := hm.wf.neZero
  refine ⟨ext, down, ?_, ?_, fun X vt => hext X .ntt vt (by simp), fun X vt => hdown X .ntt vt (by simp), fun {a d F G} h h' hF hG => ?_⟩
  · obtain ⟨H, hH⟩ := hX 0
    exact scaled_zero (NeZero.pos _) one_ne_zero hH (hA 0) (hZ 0) (hE 0)
  · obtain ⟨H, hH⟩ := hX' 0
    exact scaled_zero (NeZero.pos _) (NeZero.ne _) hH (hA' 0) (hZ' 0) (hE' 0)
  have scaled : ∀ {xs ys : List (Poly .ntt)}, Parts l.mul.dst xs (F.map ext) → Parts l.mul.dst ys (G.map ext) → ∃ rs, mulScaled l.mul par i xs ys = some ⟨par, none, rs, i⟩ ∧
      Parts l.ctx rs ((mulAllI (F.map ext) (G.map ext) (List.replicate (F.length + G.length - 1) 0)).map down) := by
    intro xs ys hx hy
    have hla : xs.length = F.length := by rw [hx.length_eq, List.length_map]
    have hlb : ys.length = G.length := by rw [hy.length_eq, List.length_map]
    have hz := parts_zero (N := par.degree) hm.wf hm.deg (z := if (xs ++ ys).all (·.vt) then (Poly.zero .ntt l.mul.dst).allowVt else Poly.zero .ntt l.mul.dst) (by split <;> simp)
      (xs.length + ys.length - 1)
    obtain ⟨ms, f1, f2⟩ := mulAll_eq hm.wf hm.deg hx hy hz (ne_nil_of_two (by rw [List.length_map]; exact hG)) (by rw [List.length_replicate, List.length_map, List.length_map]; omega)
    obtain ⟨rs, g1, g2, -⟩ := mapM_scale_map (fun X vt => hdown X .ntt vt (by simp)) f2
    refine ⟨rs, ?_, by rw [hla, hlb] at g2; exact g2⟩
    unfold mulScaled
    rw [subU_eq (by omega)]
    simp only [Option.bind_eq_bind, Option.bind_some]
    rw [f1, Option.bind_some, g1]; rfl
  have hne : a.c ≠ [] := h.ne_nil hF
  obtain ⟨xs, x1, x2, x3⟩ := mapM_scale_map (fun X vt => hext X .ntt vt (by simp)) h.parts
  obtain ⟨ys, y1, y2, y3⟩ := mapM_scale_map (fun X vt => hext X .ntt vt (by simp)) h'.parts
  by_cases hbe : d.beq a = true
  · have hG' : Parts l.ctx a.c G := by
      unfold Ciphertext.beq at hbe
      simp only [Bool.and_eq_true, decide_eq_true_eq] at hbe
      exact Parts.of_beq ha.wf ha.deg h'.parts (by simp_all) (by simp_all)
    obtain ⟨rs, k1, k2⟩ := scaled x2 (x3 G hG')
    refine ⟨⟨par, none, rs, i⟩, ?_, rfl, rfl, rfl, k2⟩
    unfold Ciphertext.mul
    rw [if_neg hne, if_pos hbe, h.par_eq, h.level_eq, h'.level_eq, ha.contextLevelAt, Res.unwrap_ok]
    simp only [Option.bind_eq_bind, Option.bind_some]
    rw [x1, Option.bind_some, k1]
  · obtain ⟨rs, k1, k2⟩ := scaled x2 y2
    refine ⟨⟨par, none, rs, i⟩, ?_, rfl, rfl, rfl, k2⟩
    unfold Ciphertext.mul
    rw [if_neg hne, if_neg hbe, h.par_eq, h'.par_eq, h.level_eq, h'.level_eq, ptrEq_self, ha.contextLevelAt, Res.unwrap_ok]
    simp only [check_true, Option.bind_eq_bind, Option.bind_some]
    rw [x1, Option.bind_some, y1, Option.bind_some, k1]

/-- The parts of a product, in terms of what the scalers of the level compute. -/
theorem Is.mul_scalers (hw : ParWF b n par.toBfvParameters) (hcount : par.moduli.length ≤ 31) (hsum : par.moduli.sum ≤ 2 ^ 65) (ha : AtLevel b n par i l) :
    ∃ ext down : IntPoly par.degree → IntPoly par.degree, (∀ X vt, l.mul.extender.scale (encI l.ctx .ntt vt X) = some (.ok (encI l.mul.dst .ntt vt (ext X)))) ∧
      (∀ X vt, l.mul.downScaler.scale (encI l.mul.dst .ntt vt X) = some (.ok (encI l.ctx .ntt vt (down X)))) ∧
      ∀ {a d : Ciphertext} {F G : List (IntPoly par.degree)}, a.Is par i l F → d.Is par i l G → 2 ≤ F.length → 2 ≤ G.length →
      ∃ r, a.mul d = some r ∧ r.seed = none ∧ r.Is par i l ((mulAllI (F.map ext) (G.map ext) (List.replicate (F.length + G.length - 1) 0)).map down) := by
  obtain ⟨ext, down, -, -, h⟩ := Is.mul_scalers_zero hw hcount hsum ha
  exact ⟨ext, down, h⟩

/-- The parts of a product are a symmetric function of the parts of the factors. -/
theorem Is.mul (hw : ParWF b n par.toBfvParameters) (hcount : par.moduli.length ≤ 31) (hsum : par.moduli.sum ≤ 2 ^ 65) (ha : AtLevel b n par i l) :
    ∃ ext down : IntPoly par.degree → IntPoly par.degree, ∀ {a d : Ciphertext} {F G : List (IntPoly par.degree)}, a.Is par i l F → d.Is par i l G → 2 ≤ F.length → 2 ≤ G.length →
      ∃ r, a.mul d = some r ∧ r.seed = none ∧ r.Is par i l ((mulAllI (F.map ext) (G.map ext) (List.replicate (F.length + G.length - 1) 0)).map down) := by
  obtain ⟨ext, down, -, -, h⟩ := Is.mul_scalers hw hcount hsum ha
  exact ⟨ext, down, h⟩

end Ciphertext
end Fhe
