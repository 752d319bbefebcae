import Verif.Spec.BfvMultiplicator
import Verif.Lemmas.BfvMul
import Verif.Lemmas.BfvRelin
/-!
# Lemmas on multiplication strategies
-/
namespace Fhe
open Nega Poly Ciphertext

variable {b : Build} {n N : Nat} {c c' : Context}

/-- The scaler multiplies integer polynomials, seen as centered modulo the source, by `num / den`. -/
def Scaler.Scales (N : Nat) (S : Scaler) (c c' : Context) (num den : Nat) : Prop :=
  ∀ X : IntPoly N, ∃ A Z E : IntPoly N, (∃ H, X = A + C (c.modulus : Int) * H) ∧ AlmostCentered c.modulus A ∧ C (den : Int) * Z = C (num : Int) * A + E ∧
    (∀ j, 2 ^ 62 * |E j| ≤ (2 ^ 61 + 1) * den) ∧ (num = den → Z = A) ∧ ∀ (r : Rep) (vt : Bool), r ≠ .nttShoup → S.scale (encI c r vt X) = some (.ok (encI c' r vt Z))

theorem MulStrategy.height_bounded {Q num den : Nat} (hd : den ≠ 0) {A Z E : IntPoly N} (hA : AlmostCentered Q A) (h : C (den : Int) * Z = C (num : Int) * A + E)
    (hE : ∀ j, 2 ^ 62 * |E j| ≤ (2 ^ 61 + 1) * den) : Z.Bounded (height Q num den) := by
  intro j
  have h1 := hA.bounded j
  have h2 : |E j| ≤ ((2 ^ 61 + 1) * den / 2 ^ 62 : Nat) := by
    have := hE j
    push_cast
    exact (Int.le_ediv_iff_mul_le (by norm_num)).2 (by rw [mul_comm]; exact this)
  have h3 := congrFun h j
  rw [Nega.add_apply, C_mul_apply, C_mul_apply] at h3
  have h4 : (den : Int) * |Z j| ≤ num * |A j| + |E j| := by
    rw [← Nat.abs_cast den, ← abs_mul, h3]
    refine (abs_add_le _ _).trans ?_
    rw [abs_mul, Nat.abs_cast]
  have h5 : (num : Int) * |A j| ≤ num * (Q * (2 ^ 55 + 1) / 2 ^ 56 : Nat) := mul_le_mul_of_nonneg_left h1 (by positivity)
  unfold height
  rw [Int.natCast_ediv]
  refine (Int.le_ediv_iff_mul_le (by exact_mod_cast Nat.pos_of_ne_zero hd)).2 ?_
  rw [mul_comm]
  rw [Nat.cast_add, Nat.cast_mul]
  linarith

namespace Multiplicator

/-- Extension, product and scaling of two parts by two. -/
theorem product_eq (h' : c'.WF b n) (hN' : c'.degree = N) {mp : Multiplicator} {σ : MulStrategy}
    (hl : mp.extenderLhs.Scales N c c' σ.lhsNum σ.lhsDen) (hr : mp.extenderRhs.Scales N c c' σ.rhsNum σ.rhsDen) (hp : mp.downScaler.Scales N c' c σ.postNum σ.postDen)
    (hl0 : σ.lhsDen ≠ 0) (hr0 : σ.rhsDen ≠ 0)
    (hfit : 2 ^ 57 * (N * (MulStrategy.height c.modulus σ.lhsNum σ.lhsDen * MulStrategy.height c.modulus σ.rhsNum σ.rhsDen)) < c'.modulus * (2 ^ 55 - 1) ∨
      σ.postDen * c.modulus ∣ σ.postNum * c'.modulus)
    (s : IntPoly N) (L0 L1 R0 R1 : IntPoly N) (w0 w1 w2 w3 : Bool) :
    ∃ (Z0 Z1 Z2 : IntPoly N) (x0 x1 x2 : Bool) (A B EA EB E : List (IntPoly N)),
      mp.product (encI c .ntt w0 L0) (encI c .ntt w1 L1) (encI c .ntt w2 R0) (encI c .ntt w3 R1) = Res.ok (encI c .ntt x0 Z0, encI c .ntt x1 Z1, encI c .ntt x2 Z2) ∧
      (A.length = 2 ∧ ∀ x ∈ A, AlmostCentered c.modulus x) ∧ (B.length = 2 ∧ ∀ x ∈ B, AlmostCentered c.modulus x) ∧
      (∃ H, phase s [L0, L1] = phase s A + C (c.modulus : Int) * H) ∧ (∃ H, phase s [R0, R1] = phase s B + C (c.modulus : Int) * H) ∧
      (EA.length = 2 ∧ ∀ e ∈ EA, ∀ j, 2 ^ 62 * |e j| ≤ (2 ^ 61 + 1) * σ.lhsDen) ∧ (EB.length = 2 ∧ ∀ e ∈ EB, ∀ j, 2 ^ 62 * |e j| ≤ (2 ^ 61 + 1) * σ.rhsDen) ∧
      (E.length = 3 ∧ ∀ e ∈ E, ∀ j, 2 ^ 62 * |e j| ≤ (2 ^ 61 + 1) * σ.postDen) ∧
      (σ.lhsNum = σ.lhsDen → phase s EA = 0) ∧ (σ.rhsNum = σ.rhsDen → phase s EB = 0) ∧
      ∃ HH, C ((σ.postDen * σ.lhsDen * σ.rhsDen : Nat) : Int) * (phase s [Z0, Z1, Z2] + C (c.modulus : Int) * HH) =
        C (σ.postNum : Int) * ((C (σ.lhsNum : Int) * phase s A + phase s EA) * (C (σ.rhsNum : Int) * phase s B + phase s EB)) + C ((σ.lhsDen * σ.rhsDen : Nat) : Int) * phase s E := by
  obtain ⟨a0, y0, d0, p1, p2, p3, p4, p5, p6⟩ := hl L0
  obtain ⟨a1, y1, d1, q1, q2, q3, q4, q5, q6⟩ := hl L1
  obtain ⟨b0, u0, g0, r1, r2, r3, r4, r5, r6⟩ := hr R0
  obtain ⟨b1, u1, g1, t1, t2, t3, t4, t5, t6⟩ := hr R1
  obtain ⟨k0, Z0, e0, c1, c2, c3, c4, -, c6⟩ := hp (y0 * u0)
  obtain ⟨k1, Z1, e1, f1, f2, f3, f4, -, f6⟩ := hp (y0 * u1 + y1 * u0)
  obtain ⟨k2, Z2, e2, o1, o2, o3, o4, -, o6⟩ := hp (y1 * u1)
  have hy0 := MulStrategy.height_bounded hl0 p2 p3 p4
  have hy1 := MulStrategy.height_bounded hl0 q2 q3 q4
  have hu0 := MulStrategy.height_bounded hr0 r2 r3 r4
  have hu1 := MulStrategy.height_bounded hr0 t2 t3 t4
  have hkey : ∃ HH, C (σ.postNum : Int) * phase s [y0 * u0, y0 * u1 + y1 * u0, y1 * u1] = C (σ.postNum : Int) * phase s [k0, k1, k2] + C (σ.postDen : Int) * (C (c.modulus : Int) * HH) := by
    rcases hfit with hfit | ⟨K, hK⟩
    · refine ⟨0, ?_⟩
      have hX : [y0 * u0, y0 * u1 + y1 * u0, y1 * u1] = [k0, k1, k2] := by
        refine eq_of_almostCentered (P := c'.modulus) (.cons c1 (.cons f1 (.cons o1 .nil))) (fun x hx j => ?_) (fun x hx => ?_)
        · have hb : x.Bounded (2 * (N * (MulStrategy.height c.modulus σ.lhsNum σ.lhsDen * MulStrategy.height c.modulus σ.rhsNum σ.rhsDen))) := by
            simp only [List.mem_cons, List.not_mem_nil, or_false] at hx
            rcases hx with rfl | rfl | rfl
            · exact (hy0.mul hu0).mono (by rw [mul_assoc]; omega)
            · exact ((hy0.mul hu1).add (hy1.mul hu0)).mono (by rw [mul_assoc]; omega)
            · exact (hy1.mul hu1).mono (by rw [mul_assoc]; omega)
          have h1 := hb j
          have h2 : ((2 ^ 57 * (N * (MulStrategy.height c.modulus σ.lhsNum σ.lhsDen * MulStrategy.height c.modulus σ.rhsNum σ.rhsDen)) : Nat) : Int) < ((c'.modulus * (2 ^ 55 - 1) : Nat) : Int) := by
            exact_mod_cast hfit
          generalize N * (MulStrategy.height c.modulus σ.lhsNum σ.lhsDen * MulStrategy.height c.modulus σ.rhsNum σ.rhsDen) = K at h1 h2
          push_cast at h1 h2
          norm_num at h2 ⊢
          linarith
        · simp only [List.mem_cons, List.not_mem_nil, or_false] at hx
          rcases hx with rfl | rfl | rfl <;> assumption
      rw [hX]; ring
    · obtain ⟨H, hH⟩ := phase_congr s (.cons c1 (.cons f1 (.cons o1 .nil)))
      refine ⟨C (K : Int) * H, ?_⟩
      have hC : ∀ x y : Nat, (C ((x * y : Nat) : Int) : IntPoly N) = C (x : Int) * C (y : Int) := by
        intro x y; rw [Nat.cast_mul]; exact map_mul C _ _
      have hK' := congrArg (fun x : Nat => (C (x : Int) : IntPoly N)) hK
      simp only [hC] at hK'
      rw [hH]
      linear_combination H * hK'
  obtain ⟨HH, hHH⟩ := hkey
  refine ⟨Z0, Z1, Z2, w0 && w2, w0 && w3 && (w1 && w2), w1 && w3, [a0, a1], [b0, b1], [d0, d1], [g0, g1], [e0, e1, e2], ?_, ⟨rfl, ?_⟩, ⟨rfl, ?_⟩, ?_, ?_, ⟨rfl, ?_⟩, ⟨rfl, ?_⟩, ⟨rfl, ?_⟩, ?_, ?_, ?_⟩
  · unfold product
    rw [p6 _ _ (by simp), Res.math_ok, Res.ok_bind, q6 _ _ (by simp), Res.math_ok, Res.ok_bind, r6 _ _ (by simp), Res.math_ok, Res.ok_bind, t6 _ _ (by simp), Res.math_ok, Res.ok_bind,
      mulAssign_encI h' hN', Res.lift_some, Res.ok_bind, mulAssign_encI h' hN', Res.lift_some, Res.ok_bind, mulAssign_encI h' hN', Res.lift_some, Res.ok_bind,
      addAssign_encI h' hN' (by simp), Res.lift_some, Res.ok_bind, mulAssign_encI h' hN', Res.lift_some, Res.ok_bind, c6 _ _ (by simp), Res.math_ok, Res.ok_bind,
      f6 _ _ (by simp), Res.math_ok, Res.ok_bind, o6 _ _ (by simp), Res.math_ok, Res.ok_bind, Res.pure_eq]
  · intro x hx; simp only [List.mem_cons, List.not_mem_nil, or_false] at hx; rcases hx with rfl | rfl <;> assumption
  · intro x hx; simp only [List.mem_cons, List.not_mem_nil, or_false] at hx; rcases hx with rfl | rfl <;> assumption
  · exact phase_congr s (.cons p1 (.cons q1 .nil))
  · exact phase_congr s (.cons r1 (.cons t1 .nil))
  · intro x hx; simp only [List.mem_cons, List.not_mem_nil, or_false] at hx; rcases hx with rfl | rfl <;> assumption
  · intro x hx; simp only [List.mem_cons, List.not_mem_nil, or_false] at hx; rcases hx with rfl | rfl <;> assumption
  · intro x hx; simp only [List.mem_cons, List.not_mem_nil, or_false] at hx; rcases hx with rfl | rfl | rfl <;> assumption
  · intro he
    rw [phase_two]
    have h1 := p5 he
    have h2 := q5 he
    rw [h1, he] at p3
    rw [h2, he] at q3
    linear_combination -p3 - s * q3
  · intro he
    rw [phase_two]
    have h1 := r5 he
    have h2 := t5 he
    rw [h1, he] at r3
    rw [h2, he] at t3
    linear_combination -r3 - s * t3
  · refine ⟨HH, ?_⟩
    have hA : C (σ.lhsNum : Int) * phase s [a0, a1] + phase s [d0, d1] = C (σ.lhsDen : Int) * phase s [y0, y1] := by
      rw [phase_two, phase_two, phase_two]; linear_combination -p3 - s * q3
    have hB : C (σ.rhsNum : Int) * phase s [b0, b1] + phase s [g0, g1] = C (σ.rhsDen : Int) * phase s [u0, u1] := by
      rw [phase_two, phase_two, phase_two]; linear_combination -r3 - s * t3
    have hZ : C (σ.postDen : Int) * (phase s [Z0, Z1, Z2] + C (c.modulus : Int) * HH) = C (σ.postNum : Int) * (phase s [y0, y1] * phase s [u0, u1]) + phase s [e0, e1, e2] := by
      rw [phase_three, phase_three] at hHH
      rw [phase_three, phase_two, phase_two, phase_three]; linear_combination c3 + s * f3 + s ^ 2 * o3 - hHH
    rw [hA, hB]
    have hC : ∀ x y : Nat, (C ((x * y : Nat) : Int) : IntPoly N) = C (x : Int) * C (y : Int) := by
      intro x y; rw [Nat.cast_mul]; exact map_mul C _ _
    rw [hC, hC, hC]
    linear_combination C (σ.lhsDen : Int) * C (σ.rhsDen : Int) * hZ

variable {par : Par} {i : Nat} {l : ContextLevel} {s : IntPoly par.degree} {ct ct' : Ciphertext} {m m' : par.Msg} {v v' : IntPoly par.degree} {mp : Multiplicator}

/-- The multiplicator was made for the strategy. -/
structure Follows (N : Nat) (mp : Multiplicator) (σ : MulStrategy) (par : Par) (i : Nat) (l : ContextLevel) : Prop where
  par_eq : mp.par = par
  level : mp.level = i
  base : mp.baseCtx = l.ctx
  lhs : mp.extenderLhs.Scales N l.ctx mp.mulCtx σ.lhsNum σ.lhsDen
  rhs : mp.extenderRhs.Scales N l.ctx mp.mulCtx σ.rhsNum σ.rhsDen
  post : mp.downScaler.Scales N mp.mulCtx l.ctx σ.postNum σ.postDen
  wf : ∃ b n, mp.mulCtx.WF b n
  deg : mp.mulCtx.degree = N
  modulus : mp.mulCtx.modulus = σ.basis.prod

theorem two_parts {ps : List (Poly .ntt)} {F : List (IntPoly N)} (hF : Parts c ps F) (h2 : ps.length = 2) :
    ∃ v0 v1 F0 F1, ps = [encI c .ntt v0 F0, encI c .ntt v1 F1] ∧ F = [F0, F1] := by
  match ps, F, hF with
  | [_, _], [F0, F1], .cons ⟨v0, h0⟩ (.cons ⟨v1, h1⟩ .nil) => exact ⟨v0, v1, F0, F1, by rw [h0, h1], rfl⟩
  | [], _, _ => simp at h2
  | [_], _, _ => simp at h2
  | _ :: _ :: _ :: _, _, _ => simp at h2

theorem multiply_eq (hw : ParWF b n par.toBfvParameters) (ha : AtLevel b n par i l) {σ : MulStrategy} (hf : mp.Follows par.degree σ par i l) (hl0 : σ.lhsDen ≠ 0) (hr0 : σ.rhsDen ≠ 0)
    (hfac : σ.postNum * σ.lhsNum * σ.rhsNum * par.modulusAt i = par.plaintext.value * (σ.postDen * σ.lhsDen * σ.rhsDen))
    (hfit : 2 ^ 57 * (par.degree * (MulStrategy.height (par.modulusAt i) σ.lhsNum σ.lhsDen * MulStrategy.height (par.modulusAt i) σ.rhsNum σ.rhsDen)) < σ.basis.prod * (2 ^ 55 - 1) ∨
      σ.postDen * par.modulusAt i ∣ σ.postNum * σ.basis.prod)
    (h1 : ct.Encrypts par s i m v) (h2 : ct'.Encrypts par s i m' v') (hl1 : ct.c.length = 2) (hl2 : ct'.c.length = 2) (hrk : mp.rk = none) (hms : mp.modSwitch = false) :
    ∃ (r : Ciphertext) (v'' M M' : IntPoly par.degree) (A B EA EB E : List (IntPoly par.degree)), mp.multiply ct ct' = Res.ok r ∧ r.Encrypts par s i (m * m') v'' ∧ r.c.length = 3 ∧ r.seed = none ∧
      red par.plaintext.value M = m ∧ red par.plaintext.value M' = m' ∧
      (A.length = 2 ∧ ∀ x ∈ A, AlmostCentered (par.modulusAt i) x) ∧ (B.length = 2 ∧ ∀ x ∈ B, AlmostCentered (par.modulusAt i) x) ∧
      C (par.plaintext.value : Int) * phase s A = C (par.modulusAt i : Int) * M + v ∧ C (par.plaintext.value : Int) * phase s B = C (par.modulusAt i : Int) * M' + v' ∧
      (EA.length = 2 ∧ ∀ e ∈ EA, ∀ j, 2 ^ 62 * |e j| ≤ (2 ^ 61 + 1) * σ.lhsDen) ∧ (EB.length = 2 ∧ ∀ e ∈ EB, ∀ j, 2 ^ 62 * |e j| ≤ (2 ^ 61 + 1) * σ.rhsDen) ∧
      (E.length = 3 ∧ ∀ e ∈ E, ∀ j, 2 ^ 62 * |e j| ≤ (2 ^ 61 + 1) * σ.postDen) ∧
      (σ.lhsNum = σ.lhsDen → phase s EA = 0) ∧ (σ.rhsNum = σ.rhsDen → phase s EB = 0) ∧
      C ((σ.postNum * σ.lhsNum * σ.rhsNum : Nat) : Int) * (C (par.modulusAt i : Int) * v'') =
        C ((σ.postNum * σ.lhsNum * σ.rhsNum : Nat) : Int) * (C (par.modulusAt i : Int) * (M * v' + M' * v) + v * v') +
        C (par.plaintext.value : Int) * (C (par.plaintext.value : Int) * (C (σ.postNum : Int) * (C (σ.lhsNum : Int) * phase s A * phase s EB + C (σ.rhsNum : Int) * phase s B * phase s EA + phase s EA * phase s EB) +
          C ((σ.lhsDen * σ.rhsDen : Nat) : Int) * phase s E)) := by
  obtain ⟨l', F, M, ha', hF, hM, hph⟩ := h1.elim hw
  obtain rfl := ha.unique ha'
  obtain ⟨l', G, M', ha', hG, hM', hph'⟩ := h2.elim hw
  obtain rfl := ha.unique ha'
  have hv1 := validateFor_ok (par := par) (ct := ct) (l := l) (by rw [h1.level_eq]; exact ha) h1.par_eq (by omega) hF.ctx
  have hv2 := validateFor_ok (par := par) (ct := ct') (l := l) (by rw [h2.level_eq]; exact ha) h2.par_eq (by omega) hG.ctx
  obtain ⟨w0, w1, L0, L1, hc, rfl⟩ := two_parts hF hl1
  obtain ⟨w2, w3, R0, R1, hc', rfl⟩ := two_parts hG hl2
  obtain ⟨b', n', hwf⟩ := hf.wf
  obtain ⟨Z0, Z1, Z2, x0, x1, x2, A, B, EA, EB, E, e1, e2, e3, ⟨HA, pA⟩, ⟨HB, pB⟩, e6, e7, e8, e9, e10, HH, e11⟩ :=
    product_eq (mp := mp) (σ := σ) hwf hf.deg hf.lhs hf.rhs hf.post hl0 hr0 (by rw [hf.modulus, ha.mod]; exact hfit) s L0 L1 R0 R1 w0 w1 w2 w3
  rw [ha.mod] at pA pB e2 e3 e11
  have qA : C (par.plaintext.value : Int) * phase s A = C (par.modulusAt i : Int) * (M - C (par.plaintext.value : Int) * HA) + v := by linear_combination hph - C (par.plaintext.value : Int) * pA
  have qB : C (par.plaintext.value : Int) * phase s B = C (par.modulusAt i : Int) * (M' - C (par.plaintext.value : Int) * HB) + v' := by linear_combination hph' - C (par.plaintext.value : Int) * pB
  have redC : ∀ H : IntPoly par.degree, red par.plaintext.value (C (par.plaintext.value : Int) * H) = 0 := by
    intro H
    apply Nega.ext; intro j
    show (((C (par.plaintext.value : Int) * H : IntPoly par.degree) j : Int) : ZMod par.plaintext.value) = 0
    rw [C_mul_apply]; push_cast; simp
  have hMA : red par.plaintext.value (M - C (par.plaintext.value : Int) * HA) = m := by rw [red_sub, hM, redC, sub_zero]
  have hMB : red par.plaintext.value (M' - C (par.plaintext.value : Int) * HB) = m' := by rw [red_sub, hM', redC, sub_zero]
  generalize M - C (par.plaintext.value : Int) * HA = MA at qA hMA
  generalize M' - C (par.plaintext.value : Int) * HB = MB at qB hMB
  refine ⟨⟨par, none, [encI l.ctx .ntt x0 Z0, encI l.ctx .ntt x1 Z1, encI l.ctx .ntt x2 Z2], i⟩, C (par.plaintext.value : Int) * (phase s [Z0, Z1, Z2] + C (par.modulusAt i : Int) * HH) - C (par.modulusAt i : Int) * (MA * MB), MA, MB, A, B, EA, EB, E, ?_,
    Encrypts.intro ha rfl rfl (by simp) (.cons ⟨_, rfl⟩ (.cons ⟨_, rfl⟩ (.cons ⟨_, rfl⟩ .nil))) (M := MA * MB - C (par.plaintext.value : Int) * HH) (by rw [red_sub, redC, sub_zero, red_mul, hMA, hMB]) (by ring), rfl, rfl, hMA, hMB, e2, e3, qA, qB, e6, e7, e8, e9, e10, ?_⟩
  · unfold multiply
    rw [hf.par_eq, hv1, Res.ok_bind, hv2, Res.ok_bind, hf.level, if_neg (by rw [h1.level_eq]; simp), if_neg (by rw [h2.level_eq]; simp), hc, hc']
    simp only []
    rw [e1, Res.ok_bind]
    unfold parts
    simp only [hrk, hms]
    rw [Res.ok_bind]
    rfl
  · have hC : ∀ x y : Nat, (C ((x * y : Nat) : Int) : IntPoly par.degree) = C (x : Int) * C (y : Int) := by
      intro x y; rw [Nat.cast_mul]; exact map_mul C _ _
    have hfac' := congrArg (fun x : Nat => (C (x : Int) : IntPoly par.degree)) hfac
    simp only [hC] at hfac' e11 ⊢
    linear_combination C (par.plaintext.value : Int) * (phase s [Z0, Z1, Z2] + C (par.modulusAt i : Int) * HH) * hfac' + C (par.plaintext.value : Int) * C (par.plaintext.value : Int) * e11 -
      C (σ.postNum : Int) * C (σ.lhsNum : Int) * C (σ.rhsNum : Int) * (C (par.plaintext.value : Int) * phase s A * qB + (C (par.modulusAt i : Int) * MB + v') * qA) * (-1)

/-- Relinearization is a step of its own. -/
theorem multiply_relin {mp : Multiplicator} {rk : RelinearizationKey} {r r' : Ciphertext} (h : ({ mp with rk := none, modSwitch := false } : Multiplicator).multiply ct ct' = Res.ok r)
    (h' : rk.relinearizes r = Res.ok r') : ({ mp with rk := some rk, modSwitch := false } : Multiplicator).multiply ct ct' = Res.ok r' := by
  unfold multiply at h ⊢
  rw [Res.bind_eq_ok] at h
  obtain ⟨_, g1, h⟩ := h
  rw [Res.bind_eq_ok] at h
  obtain ⟨_, g2, h⟩ := h
  by_cases h1 : ct.level ≠ mp.level
  · rw [if_pos h1] at h; exact absurd h Res.err_ne_ok
  by_cases h2 : ct'.level ≠ mp.level
  · rw [if_neg h1, if_pos h2] at h; exact absurd h Res.err_ne_ok
  rw [if_neg h1, if_neg h2] at h
  simp only [] at g1 g2
  simp only []
  rw [g1, Res.ok_bind, g2, Res.ok_bind, if_neg h1, if_neg h2]
  match hc : ct.c, hc' : ct'.c with
  | [l0, l1], [r0, r1] =>
    simp only [hc, hc'] at h ⊢
    rw [Res.bind_eq_ok] at h
    obtain ⟨x, g3, h⟩ := h
    have g4 : ({ mp with rk := some rk, modSwitch := false } : Multiplicator).product l0 l1 r0 r1 = Res.ok x := g3
    rw [g4, Res.ok_bind]
    rw [Res.bind_eq_ok] at h
    obtain ⟨ps, g5, h⟩ := h
    unfold parts at g5 ⊢
    simp only [Res.ok_inj] at g5
    subst g5
    simp only [Bool.false_eq_true, if_false] at h ⊢
    rw [Res.pure_eq, Res.ok_inj] at h
    subst h
    unfold RelinearizationKey.relinearizes at h'
    simp only [Res.bind_eq_ok] at h'
    obtain ⟨_, _, h'⟩ := h'
    by_cases h3 : mp.level ≠ rk.ksk.ciphertextLevel
    · rw [if_pos h3] at h'; exact absurd h' Res.err_ne_ok
    rw [if_neg h3] at h'
    simp only [Res.bind_eq_ok] at h'
    obtain ⟨y, k1, z, k2, a, k3, u, k4, w, k5, h'⟩ := h'
    rw [Res.pure_eq, Res.ok_inj] at h'
    rw [k1, Res.ok_bind, k2, Res.ok_bind, k3, Res.ok_bind, k4, Res.ok_bind, k5, Res.ok_bind, Res.pure_eq, Res.ok_bind, Res.pure_eq, h']
  | [], _ => simp only [hc] at h; exact absurd h Res.err_ne_ok
  | [_], _ => simp only [hc] at h; exact absurd h Res.err_ne_ok
  | _ :: _ :: _ :: _, _ => simp only [hc] at h; exact absurd h Res.err_ne_ok
  | [_, _], [] => simp only [hc, hc'] at h; exact absurd h Res.err_ne_ok
  | [_, _], [_] => simp only [hc, hc'] at h; exact absurd h Res.err_ne_ok
  | [_, _], _ :: _ :: _ :: _ => simp only [hc, hc'] at h; exact absurd h Res.err_ne_ok

/-- So is switching. -/
theorem multiply_switch {mp : Multiplicator} {r : Ciphertext} (h : ({ mp with modSwitch := false } : Multiplicator).multiply ct ct' = Res.ok r) :
    ({ mp with modSwitch := true } : Multiplicator).multiply ct ct' = r.switchDown := by
  unfold multiply at h ⊢
  rw [Res.bind_eq_ok] at h
  obtain ⟨_, g1, h⟩ := h
  rw [Res.bind_eq_ok] at h
  obtain ⟨_, g2, h⟩ := h
  by_cases h1 : ct.level ≠ mp.level
  · rw [if_pos h1] at h; exact absurd h Res.err_ne_ok
  by_cases h2 : ct'.level ≠ mp.level
  · rw [if_neg h1, if_pos h2] at h; exact absurd h Res.err_ne_ok
  rw [if_neg h1, if_neg h2] at h
  simp only [] at g1 g2
  simp only []
  rw [g1, Res.ok_bind, g2, Res.ok_bind, if_neg h1, if_neg h2]
  match hc : ct.c, hc' : ct'.c with
  | [l0, l1], [r0, r1] =>
    simp only [hc, hc'] at h ⊢
    rw [Res.bind_eq_ok] at h
    obtain ⟨x, g3, h⟩ := h
    have g4 : ({ mp with modSwitch := true } : Multiplicator).product l0 l1 r0 r1 = Res.ok x := g3
    rw [g4, Res.ok_bind]
    rw [Res.bind_eq_ok] at h
    obtain ⟨ps, g5, h⟩ := h
    have g6 : ({ mp with modSwitch := true } : Multiplicator).parts x.1 x.2.1 x.2.2 = Res.ok ps := g5
    rw [g6, Res.ok_bind]
    simp only [Bool.false_eq_true, if_false, if_true] at h ⊢
    rw [Res.pure_eq, Res.ok_inj] at h
    rw [h]
  | [], _ => simp only [hc] at h; exact absurd h Res.err_ne_ok
  | [_], _ => simp only [hc] at h; exact absurd h Res.err_ne_ok
  | _ :: _ :: _ :: _, _ => simp only [hc] at h; exact absurd h Res.err_ne_ok
  | [_, _], [] => simp only [hc, hc'] at h; exact absurd h Res.err_ne_ok
  | [_, _], [_] => simp only [hc, hc'] at h; exact absurd h Res.err_ne_ok
  | [_, _], _ :: _ :: _ :: _ => simp only [hc, hc'] at h; exact absurd h Res.err_ne_ok

end Multiplicator

namespace MulStrategy
variable {par : Par} {i : Nat} {l : ContextLevel} {mp : Multiplicator} {σ : MulStrategy}

theorem factor_new {num den : Nat} (hd : den ≠ 0) : ScalingFactor.new num den = some ⟨num, den, decide (num = den)⟩ := by
  unfold ScalingFactor.new
  rw [check_eq hd]; rfl

/-- The strategy is accepted when the basis is. -/
theorem make_ok (hw : ParWF b n par.toBfvParameters) (ha : AtLevel b n par i l) {mulCtx : Context} (hc : Context.new b σ.basis par.degree = some (.ok mulCtx)) (hl : σ.lhsDen ≠ 0) (hr : σ.rhsDen ≠ 0)
    (hp : σ.postDen ≠ 0) (h64 : l.ctx.moduli.length ≤ 64) (h64' : σ.basis.length ≤ 64) : ∃ mp, σ.make b i par = Res.ok mp ∧ mp.mulCtx = mulCtx := by
  obtain ⟨n', hn, hwf, hmod⟩ := Context.new_inv hw.ok hc
  obtain rfl : n = n' := by
    rw [hw.degree] at hn
    exact Nat.pow_right_injective (le_refl 2) hn
  obtain ⟨s1, e1⟩ := ParamsBuilder.scaler_total ha.wf hwf h64 (F := ⟨σ.lhsNum, σ.lhsDen, decide (σ.lhsNum = σ.lhsDen)⟩) (Nat.pos_of_ne_zero hl)
  obtain ⟨s2, e2⟩ := ParamsBuilder.scaler_total ha.wf hwf h64 (F := ⟨σ.rhsNum, σ.rhsDen, decide (σ.rhsNum = σ.rhsDen)⟩) (Nat.pos_of_ne_zero hr)
  obtain ⟨s3, e3⟩ := ParamsBuilder.scaler_total hwf ha.wf (by rw [hmod]; exact h64') (F := ⟨σ.postNum, σ.postDen, decide (σ.postNum = σ.postDen)⟩) (Nat.pos_of_ne_zero hp)
  refine ⟨⟨par, s1, s2, s3, l.ctx, mulCtx, none, false, i⟩, ?_, rfl⟩
  unfold make Multiplicator.newLeveled
  rw [factor_new hl, Res.lift_some, Res.ok_bind, factor_new hr, Res.lift_some, Res.ok_bind, factor_new hp, Res.lift_some, Res.ok_bind, ha.contextAt, Res.ok_bind, hc, Res.math_ok, Res.ok_bind,
    e1, Res.math_ok, Res.ok_bind, e2, Res.math_ok, Res.ok_bind, e3, Res.math_ok, Res.ok_bind, Res.pure_eq]

theorem make_inv (hw : ParWF b n par.toBfvParameters) (ha : AtLevel b n par i l) (hm : σ.make b i par = Res.ok mp) (hs : σ.Sound par i l.ctx mp.mulCtx) :
    mp.Follows par.degree σ par i l ∧ mp.rk = none ∧ mp.modSwitch = false ∧ Context.new b σ.basis par.degree = some (.ok mp.mulCtx) := by
  unfold make Multiplicator.newLeveled at hm
  rw [factor_new hs.lhs, Res.lift_some, Res.ok_bind, factor_new hs.rhs, Res.lift_some, Res.ok_bind, factor_new hs.post, Res.lift_some, Res.ok_bind, ha.contextAt, Res.ok_bind] at hm
  simp only [Res.bind_eq_ok, Res.math_eq_ok] at hm
  obtain ⟨mc, h1, s1, h2, s2, h3, s3, h4, hm⟩ := hm
  rw [Res.pure_eq, Res.ok_inj] at hm
  subst hm
  obtain ⟨n', hn, hwf, hmod⟩ := Context.new_inv hw.ok h1
  obtain rfl : n = n' := by
    rw [hw.degree] at hn
    exact Nat.pow_right_injective (le_refl 2) hn
  have hdeg : mc.degree = par.degree := by rw [hwf.level.degree, hw.degree]
  have key : ∀ {c c' : Context} {num den : Nat} {S : Scaler}, c.WF b n → c'.WF b n → c.degree = par.degree → c'.degree = par.degree → c.moduli.length ≤ 64 → den ≠ 0 →
      Spec.scalerRoom c.moduli c.rns.garner num den ≤ 2 ^ 65 → Scaler.new c c' ⟨num, den, decide (num = den)⟩ = some (.ok S) → S.Scales par.degree c c' num den := by
    intro c c' num den S a1 a2 a3 a4 a5 a6 a7 a8
    obtain ⟨F, S', e1, e2, e3⟩ := Scaler.scale_encI a1 a2 a3 a4 a5 a6 a7
    rw [factor_new a6, Option.some.injEq] at e1
    subst e1
    rw [a8] at e2
    obtain rfl : S = S' := by simpa using e2
    exact e3
  exact ⟨⟨rfl, rfl, rfl, key ha.wf hwf ha.deg hdeg hs.count hs.lhs hs.roomLhs h2, key ha.wf hwf ha.deg hdeg hs.count hs.rhs hs.roomRhs h3,
    key hwf ha.wf hdeg ha.deg (by rw [hmod]; exact hs.countMul) hs.post hs.roomPost h4, ⟨b, n, hwf⟩, hdeg, by rw [hwf.modulus_eq, hmod]⟩, rfl, rfl, h1⟩

/-- The strategy of `Multiplicator::default`, for an extension of the basis. -/
def standard (par : Par) (i : Nat) (ext : List Nat) : MulStrategy :=
  ⟨1, 1, 1, 1, par.plaintext.value, par.modulusAt i, par.moduli.take (par.moduli.length - i) ++ ext⟩

theorem standard_sound (hw : ParWF b n par.toBfvParameters) (hcount : par.moduli.length ≤ 31) (hsum : par.moduli.sum ≤ 2 ^ 65) (ha : AtLevel b n par i l) {ext : List Nat} {mulCtx : Context}
    (e2 : ∀ p ∈ ext, ParamsBuilder.IsModulus par.degree 62 p) (e3 : ext.length = ((par.moduliSizes.take (par.moduli.length - i)).sum + 60 + 61) / 62)
    (e4 : Context.new b (par.moduli.take (par.moduli.length - i) ++ ext) par.degree = some (.ok mulCtx)) : (standard par i ext).Sound par i l.ctx mulCtx := by
  have hm := ha.mulWF_of hw hcount hsum e2 e3 e4
  obtain ⟨-, -, -, hmod⟩ := Context.new_inv hw.ok e4
  have hQ := ha.pos
  have hlen := ha.length
  refine ⟨by simp [standard], by simp [standard], by simp [standard]; omega, by simp [standard], by omega, by have := hm.count; rw [hmod] at this; exact this, by simp [standard, Spec.scalerRoom],
    by simp [standard, Spec.scalerRoom], ?_, Or.inl ?_⟩
  · have := hm.room
    rw [ha.mod] at this
    exact this
  · have hl := hm.large
    have hN : par.degree ≤ 2 ^ 16 := by rw [hw.degree]; exact Nat.pow_le_pow_right (by norm_num) hw.le_16
    have hP : mulCtx.modulus = (par.moduli.take (par.moduli.length - i) ++ ext).prod := by rw [hm.wf.modulus_eq, hmod]
    rw [ha.mod, hP] at hl
    simp only [standard]
    have hh : height (par.modulusAt i) 1 1 = par.modulusAt i * (2 ^ 55 + 1) / 2 ^ 56 := by simp [height]
    rw [hh]
    generalize hH : par.modulusAt i * (2 ^ 55 + 1) / 2 ^ 56 = H
    have hH' : H * 2 ^ 56 ≤ par.modulusAt i * (2 ^ 55 + 1) := by rw [← hH]; exact Nat.div_mul_le_self _ _
    generalize par.modulusAt i = Q at hl hH' hQ
    generalize (par.moduli.take (par.moduli.length - i) ++ ext).prod = P at hl
    have hHQ : H ≤ Q := by omega
    have h1 : par.degree * (H * H) ≤ 2 ^ 16 * (Q * H) := Nat.mul_le_mul hN (Nat.mul_le_mul_right _ hHQ)
    have h2 : 2 ^ 57 * (2 ^ 16 * (Q * H)) ≤ 2 ^ 17 * (Q * (Q * (2 ^ 55 + 1))) := by
      calc 2 ^ 57 * (2 ^ 16 * (Q * H)) = 2 ^ 17 * (Q * (H * 2 ^ 56)) := by ring
        _ ≤ _ := Nat.mul_le_mul_left _ (Nat.mul_le_mul_left _ hH')
    have h3 : 0 < Q * Q := Nat.mul_pos hQ hQ
    have h4 : Q * (Q * 2 ^ 28) * (2 ^ 55 - 1) ≤ P * (2 ^ 55 - 1) := Nat.mul_le_mul_right _ hl
    calc 2 ^ 57 * (par.degree * (H * H)) ≤ 2 ^ 57 * (2 ^ 16 * (Q * H)) := Nat.mul_le_mul_left _ h1
      _ ≤ 2 ^ 17 * (Q * (Q * (2 ^ 55 + 1))) := h2
      _ = Q * Q * (2 ^ 17 * (2 ^ 55 + 1)) := by ring
      _ < Q * Q * (2 ^ 28 * (2 ^ 55 - 1)) := Nat.mul_lt_mul_of_pos_left (by norm_num) h3
      _ = Q * (Q * 2 ^ 28) * (2 ^ 55 - 1) := by ring
      _ ≤ _ := h4

end MulStrategy

namespace Multiplicator
variable {par : Par} {i : Nat} {l : ContextLevel} {mp : Multiplicator}

theorem enableRelinearization_eq (ha : AtLevel b n par i l) (hp : mp.par = par) (hb : mp.baseCtx = l.ctx) (rk : RelinearizationKey) (hk : rk.ksk.ciphertextLevel = i) :
    mp.enableRelinearization rk = Res.ok { mp with rk := some rk } := by
  unfold enableRelinearization
  rw [hp, hk, ha.contextAt, Res.ok_bind, hb, if_neg (by simp), Res.pure_eq]

/-- What `default` returns. -/
theorem default_inv (hw : ParWF b n par.toBfvParameters) (hcount : par.moduli.length ≤ 31) (hsum : par.moduli.sum ≤ 2 ^ 65) (ha : AtLevel b n par i l) {rk : RelinearizationKey} (hp : rk.ksk.par = par)
    (hi : rk.ksk.ciphertextLevel = i) :
    (∀ mp, default b rk = Res.ok mp → ∃ ext, (MulStrategy.standard par i ext).Sound par i l.ctx mp.mulCtx ∧ mp.rk = some rk ∧ mp.modSwitch = false ∧ mp.Follows par.degree (MulStrategy.standard par i ext) par i l) ∧
    (b.Lucky → ∃ mp, default b rk = Res.ok mp) := by
  have hlen : l.ctx.moduli.length = par.moduli.length - i := ha.length
  have hmod := ha.moduli
  have hdeg : 1 ≤ par.degree := by rw [hw.degree]; exact Nat.one_le_two_pow
  have hQ : par.modulusAt i ≠ 0 := by have := ha.pos; omega
  have hsizes : par.moduliSizes.length = par.moduli.length := by rw [hw.sizes, List.length_map]
  have hdef : default b rk = (do
      let ext ← ParamsBuilder.extendedBasis par.degree (((par.moduliSizes.take (par.moduli.length - i)).sum + 60 + 61) / 62) l.ctx.moduli [] (1 <<< 62)
      let mp ← (MulStrategy.standard par i ext).make b i par
      mp.enableRelinearization rk) := by
    unfold default
    rw [hp, hi]
    simp only []
    rw [ha.contextAt, Res.ok_bind, check_eq (by omega), Res.lift_some, Res.ok_bind, hlen]
    congr 1
    funext ext
    unfold MulStrategy.make MulStrategy.standard
    rw [ha.mod]
    simp only []
    rw [show ScalingFactor.new 1 1 = some ScalingFactor.one from rfl, Res.lift_some, Res.ok_bind, Res.ok_bind, MulStrategy.factor_new hQ, Res.lift_some, Res.ok_bind, Res.ok_bind, hmod]
  have hspec := ParamsBuilder.extendedBasis_spec (degree := par.degree) (needed := ((par.moduliSizes.take (par.moduli.length - i)).sum + 60 + 61) / 62) hdeg l.ctx.moduli (1 <<< 62) [] (by decide) (by decide) .nil (by simp) (by simp)
    (fun p hp hle _ => by have := hp.2.2.1; rw [Nat.one_shiftLeft] at hle; omega)
  refine ⟨fun mp h => ?_, fun hlucky => ?_⟩
  · rw [hdef] at h
    rcases hspec with ⟨ext, e1, e2, e3, e4⟩ | ⟨lst, e1, -⟩
    swap
    · rw [e1, Res.err_bind] at h; exact absurd h Res.err_ne_ok
    rw [e1, Res.ok_bind] at h
    rw [Res.bind_eq_ok] at h
    obtain ⟨mp0, h1, h2⟩ := h
    have hc : Context.new b (par.moduli.take (par.moduli.length - i) ++ ext) par.degree = some (.ok mp0.mulCtx) := by
      have h1 := h1
      unfold MulStrategy.make newLeveled at h1
      simp only [Res.bind_eq_ok, Res.math_eq_ok] at h1
      obtain ⟨_, _, _, _, _, _, _, _, mc, h3, _, _, _, _, _, _, h4⟩ := h1
      rw [Res.pure_eq, Res.ok_inj] at h4
      subst h4
      exact h3
    have hs := MulStrategy.standard_sound hw hcount hsum ha (fun p hp => (e4 p hp).1) e3 hc
    obtain ⟨f1, f2, f3, f4⟩ := MulStrategy.make_inv hw ha h1 hs
    rw [enableRelinearization_eq ha f1.par_eq f1.base rk hi, Res.ok_inj] at h2
    subst h2
    exact ⟨ext, hs, rfl, f3, ⟨f1.1, f1.2, f1.3, f1.4, f1.5, f1.6, f1.7, f1.8, f1.9⟩⟩
  · rw [hdef]
    obtain ⟨pc, hpc, hlevs⟩ := hw.levels
    have hpos := List.length_pos_of_ne_nil hw.ne_nil
    rcases hspec with ⟨ext, e1, e2, e3, e4⟩ | ⟨lst, e1, e2, e3, -⟩
    swap
    · exfalso
      obtain ⟨l0, ha0⟩ := AtLevel.ofLt (par := par) hw (i := 0) hpos
      obtain ⟨ext, f1, f2, f3, -⟩ := (hlevs 0 l0 ha0.get).dst
      have hsub : ext ⊆ lst := fun p hp => e3 p (f2 p hp).1 fun hm => (f2 p hp).2 (by rw [hmod] at hm; exact List.mem_of_mem_take hm)
      have h1 := (List.subperm_of_subset f1 hsub).length_le
      have h2 : (par.moduliSizes.take (par.moduli.length - i)).sum ≤ (par.moduliSizes.take (par.moduli.length - 0)).sum := by
        rw [Nat.sub_zero, ← hsizes, List.take_length]
        exact take_sum_le _ _
      have h3 : ((par.moduliSizes.take (par.moduli.length - i)).sum + 60 + 61) / 62 ≤ ((par.moduliSizes.take (par.moduli.length - 0)).sum + 60 + 61) / 62 := Nat.div_le_div_right (by omega)
      omega
    · rw [e1, Res.ok_bind]
      have hall : ∀ m ∈ par.moduli, m.Prime ∧ m < 2 ^ 62 ∧ m % (2 * 2 ^ n) = 1 := fun m hm => ⟨hw.moduli.prime m hm, (hw.moduli.range m hm).2, by rw [← hw.degree]; exact hw.moduli.ntt m hm⟩
      have hsup : Supported b (par.moduli.take (par.moduli.length - i) ++ ext) n := by
        refine ParamsBuilder.supported_sub hlucky hw.three_le (by
            intro h0
            have h6 := congrArg List.length (List.append_eq_nil_iff.1 h0).1
            rw [← hmod, hlen, List.length_nil] at h6
            have h5 := ha.lt
            omega) ?_ ?_
        · rw [List.nodup_append]
          refine ⟨(List.take_sublist _ _).nodup hw.moduli.nodup, e2, ?_⟩
          rintro x hx y hy rfl
          exact (e4 x hy).2 (by rw [hmod]; exact hx)
        · intro m h
          rcases List.mem_append.1 h with h | h
          · exact hall m (List.mem_of_mem_take h)
          · obtain ⟨⟨a1, -, a3, a4⟩, -⟩ := e4 m h
            exact ⟨a1, a3, by rw [← hw.degree]; exact a4⟩
      obtain ⟨dst, hdst, hdm, hdw, -⟩ := Context.new_ok hw.ok hsup
      rw [← hw.degree] at hdst
      have hs := MulStrategy.standard_sound hw hcount hsum ha (fun p hp => (e4 p hp).1) e3 hdst
      obtain ⟨mp0, h1, h2⟩ := MulStrategy.make_ok (σ := MulStrategy.standard par i ext) hw ha hdst hs.lhs hs.rhs hs.post hs.count hs.countMul
      subst h2
      obtain ⟨f1, f2, f3, f4⟩ := MulStrategy.make_inv hw ha h1 hs
      rw [h1, Res.ok_bind, enableRelinearization_eq ha f1.par_eq f1.base rk hi]
      exact ⟨_, rfl⟩

end Multiplicator
end Fhe
