import Verif.Lemmas.BfvMul
/-!
# Multiplication, with the lift of each part a function of that part
-/
namespace Fhe
open Nega Poly Ciphertext

variable {b : Build} {n N : Nat} {c c' : Context}

/-- Scaling of a list of parts, by a function of the parts. -/
theorem mapM_lift {S : Scaler} {G : IntPoly N → IntPoly N} (hS : ∀ (X : IntPoly N) (vt : Bool), S.scale (encI c .ntt vt X) = some (.ok (encI c' .ntt vt (G X)))) :
    ∀ {ps : List (Poly .ntt)} {F : List (IntPoly N)}, Parts c ps F → ∃ rs : List (Poly .ntt), (ps.mapM fun ci => unwrapMath (S.scale ci)) = some rs ∧ Parts c' rs (F.map G)
  | _, _, .nil => ⟨[], by simp, by simp⟩
  | _, _, .cons (a := p) (b := f) ⟨vt, hp⟩ hrest => by
    obtain ⟨rs, h1, h2⟩ := mapM_lift hS hrest
    subst hp
    refine ⟨encI c' .ntt vt (G f) :: rs, ?_, .cons ⟨vt, rfl⟩ h2⟩
    rw [List.mapM_cons, hS, Res.unwrapMath_ok, h1]; rfl

theorem congr_lift {Q : Int} {G : IntPoly N → IntPoly N} (hG : ∀ X, ∃ H, X = G X + C Q * H) : ∀ F : List (IntPoly N), List.Forall₂ (fun f a => ∃ H, f = a + C Q * H) F (F.map G)
  | [] => .nil
  | f :: F => .cons (hG f) (congr_lift hG F)

variable {par : Par} {i : Nat} {l : ContextLevel}

theorem mul_lift (hw : ParWF b n par.toBfvParameters) (hcount : par.moduli.length ≤ 31) (hsum : par.moduli.sum ≤ 2 ^ 65) (ha : AtLevel b n par i l) :
    ∃ G : IntPoly par.degree → IntPoly par.degree, (∀ X, AlmostCentered (par.modulusAt i) (G X)) ∧
      ∀ {s : IntPoly par.degree} {ct ct' : Ciphertext} {m m' : par.Msg} {v v' M M' : IntPoly par.degree} {F F' : List (IntPoly par.degree)},
        ct.par = par → ct'.par = par → ct.level = i → ct'.level = i → 2 ≤ ct.c.length → 2 ≤ ct'.c.length → ct.c.length ≤ 2 ^ 12 → Parts l.ctx ct.c F → Parts l.ctx ct'.c F' →
        red par.plaintext.value M = m → red par.plaintext.value M' = m' →
        C (par.plaintext.value : Int) * Fhe.phase s F = C (par.modulusAt i : Int) * M + v → C (par.plaintext.value : Int) * Fhe.phase s F' = C (par.modulusAt i : Int) * M' + v' →
        ∃ (r : Ciphertext) (v'' X X' : IntPoly par.degree) (E : List (IntPoly par.degree)), ct.mul ct' = some r ∧ r.Encrypts par s i (m * m') v'' ∧ r.c.length = ct.c.length + ct'.c.length - 1 ∧
          C (par.modulusAt i : Int) * X + v = C (par.plaintext.value : Int) * Fhe.phase s (F.map G) ∧ C (par.modulusAt i : Int) * X' + v' = C (par.plaintext.value : Int) * Fhe.phase s (F'.map G) ∧
          E.length = r.c.length ∧ (∀ e ∈ E, ∀ j, 2 ^ 62 * |e j| ≤ (2 ^ 61 + 1) * par.modulusAt i) ∧
          C (par.modulusAt i : Int) * v'' = C (par.modulusAt i : Int) * (X * v' + X' * v) + v * v' + C (par.plaintext.value : Int) * Fhe.phase s E := by
  have hm := ha.mulWF hw hcount hsum
  have := ha.wf.neZero
  obtain ⟨pc, hpc, hlevs⟩ := hw.levels
  have hL := (hlevs i l ha.get).extender
  obtain ⟨F', S', e1, e2, hscale⟩ := Scaler.scale_encI ha.wf hm.wf ha.deg hm.deg (by rw [ha.length]; omega) (num := 1) (den := 1) (by norm_num)
    (by simp [Spec.scalerRoom])
  have hone : ScalingFactor.new 1 1 = some ScalingFactor.one := rfl
  rw [hone] at e1
  obtain rfl : ScalingFactor.one = F' := by simpa using e1
  rw [hL] at e2
  obtain rfl : l.mul.extender = S' := by simpa using e2
  choose G Z E g1 g2 g3 g4 g5 g6 using hscale
  have hGS : ∀ (X : IntPoly par.degree) (vt : Bool), l.mul.extender.scale (encI l.ctx .ntt vt X) = some (.ok (encI l.mul.dst .ntt vt (G X))) := fun X vt => by
    rw [g6 X .ntt vt (by simp), g5 X rfl]
  refine ⟨G, fun X => by have := g2 X; rwa [ha.mod] at this, ?_⟩
  intro s ct ct' m m' v v' M M' F F' hp hp' hi hi' h2 h2' hlen hF hG hM hM' hph hph'
  have hne : ct.c ≠ [] := ne_nil_of_two h2
  have lift : ∀ {ps : List (Poly .ntt)} {F : List (IntPoly par.degree)}, Parts l.ctx ps F → ∃ rs : List (Poly .ntt),
      (ps.mapM fun ci => unwrapMath (l.mul.extender.scale ci)) = some rs ∧ Parts l.mul.dst rs (F.map G) := fun hF => mapM_lift hGS hF
  have hcg : ∀ F : List (IntPoly par.degree), ∃ H, Fhe.phase s F = Fhe.phase s (F.map G) + C (l.ctx.modulus : Int) * H := fun F => phase_congr s (congr_lift g1 F)
  obtain ⟨as, bs, fA, fB, hmul⟩ : ∃ as bs : List (Poly .ntt), Parts l.mul.dst as (F.map G) ∧ Parts l.mul.dst bs (F'.map G) ∧ ct.mul ct' = mulScaled l.mul par i as bs := by
    obtain ⟨as, a1, a2⟩ := lift hF
    by_cases hb : ct'.beq ct = true
    · have hb' := hb
      simp only [Ciphertext.beq, Bool.and_eq_true, decide_eq_true_eq] at hb'
      obtain ⟨bs, b1, b2⟩ := lift (Parts.of_beq ha.wf ha.deg hG hb'.1.1.2 hb'.1.2)
      rw [a1] at b1
      obtain rfl : as = bs := by simpa using b1
      refine ⟨as, as, a2, b2, ?_⟩
      unfold Ciphertext.mul
      rw [if_neg hne, if_pos hb, hp, hi, hi', ha.contextLevelAt, Res.unwrap_ok]
      simp only [Option.bind_eq_bind, Option.bind_some]
      rw [a1, Option.bind_some]
    · obtain ⟨bs, b1, b2⟩ := lift hG
      refine ⟨as, bs, a2, b2, ?_⟩
      unfold Ciphertext.mul
      rw [if_neg hne, if_neg hb, hp, hp', hi, hi', ptrEq_self, ha.contextLevelAt, Res.unwrap_ok]
      simp only [check_true, Option.bind_eq_bind, Option.bind_some]
      rw [a1, Option.bind_some, b1, Option.bind_some]
  have hlF := hF.length_eq
  have hlG := hG.length_eq
  have hac : ∀ F : List (IntPoly par.degree), ∀ x ∈ F.map G, AlmostCentered l.ctx.modulus x := fun F x hx => by
    obtain ⟨y, -, rfl⟩ := List.mem_map.1 hx
    exact g2 y
  obtain ⟨rs, Z', E', k1, k2, k3, k4, k5, k6⟩ := mulScaled_eq hw hcount hsum ha s fA fB (hac F) (hac F') (ne_nil_of_two (by rw [List.length_map]; omega)) (ne_nil_of_two (by rw [List.length_map]; omega))
    (by rw [List.length_map]; omega) par i
  rw [← hmul] at k1
  rw [List.length_map, List.length_map] at k4
  obtain ⟨HA, pA⟩ := hcg F
  obtain ⟨HB, pB⟩ := hcg F'
  rw [ha.mod] at pA pB k3 k6
  have qA : C (par.modulusAt i : Int) * (M - C (par.plaintext.value : Int) * HA) + v = C (par.plaintext.value : Int) * Fhe.phase s (F.map G) := by linear_combination C (par.plaintext.value : Int) * pA - hph
  have qB : C (par.modulusAt i : Int) * (M' - C (par.plaintext.value : Int) * HB) + v' = C (par.plaintext.value : Int) * Fhe.phase s (F'.map G) := by linear_combination C (par.plaintext.value : Int) * pB - hph'
  have redC : ∀ H : IntPoly par.degree, red par.plaintext.value (C (par.plaintext.value : Int) * H) = 0 := by
    intro H
    apply Nega.ext; intro j
    show (((C (par.plaintext.value : Int) * H : IntPoly par.degree) j : Int) : ZMod par.plaintext.value) = 0
    rw [C_mul_apply]; push_cast; simp
  have hMA : red par.plaintext.value (M - C (par.plaintext.value : Int) * HA) = m := by rw [red_sub, hM, redC, sub_zero]
  have hMB : red par.plaintext.value (M' - C (par.plaintext.value : Int) * HB) = m' := by rw [red_sub, hM', redC, sub_zero]
  generalize M - C (par.plaintext.value : Int) * HA = MA at qA hMA
  generalize M' - C (par.plaintext.value : Int) * HB = MB at qB hMB
  refine ⟨⟨par, none, rs, i⟩, C (par.plaintext.value : Int) * Fhe.phase s Z' - C (par.modulusAt i : Int) * (MA * MB), MA, MB, E', k1,
    Encrypts.intro ha rfl rfl (by show 2 ≤ rs.length; rw [k4]; omega) k2 (M := MA * MB) (by rw [red_mul, hMA, hMB]) (by ring), by show rs.length = _; rw [k4, hlF, hlG], qA, qB, k5, k6, ?_⟩
  linear_combination C (par.plaintext.value : Int) * k3 - (C (par.modulusAt i : Int) * MB + v') * qA - C (par.plaintext.value : Int) * Fhe.phase s (F.map G) * qB

end Fhe
